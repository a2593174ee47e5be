"""helper: insert text before the markers of the registration files"""
def ins(path, marker, text):
    s = open(path).read(); assert marker in s
    i = s.index(marker); open(path, 'w').write(s[:i] + text + s[i:])
def props(t): ins('/verif/tools/gen_properties.py', '#@MORE', t)
def manifest(t): ins('/verif/tools/gen_manifest.py', '#@END', t)
def plan(t): ins('/verif/DESIGN.md', '<!-- PLANROWS -->', t)
def findings(t): ins('/verif/DESIGN.md', '<!-- MOREFINDINGS -->', t)
def imports(*ms):
    s = open('/verif/lean/Verif.lean').read()
    for m in ms:
        if f'import {m}\n' not in s: s += f'import {m}\n'
    open('/verif/lean/Verif.lean', 'w').write(s)
