# every def / structure / inductive / abbrev in the lean sources should carry a doc comment
import glob,re,sys
bad=0
for f in sorted(glob.glob('/verif/lean/Verif/**/*.lean',recursive=True)):
    L=open(f).read().split('\n')
    for i,l in enumerate(L):
        if re.match(r'(@\[.*?\]\s*)?(noncomputable |private |protected |partial )*(def|structure|inductive|abbrev|class|instance)\b',l):
            if l.startswith('@[inherit_doc'): continue
            j=i-1
            while j>=0 and (L[j].strip()=='' or L[j].startswith('mutual') or L[j].startswith('open ') or L[j].startswith('@[')or L[j].startswith('set_option')): 
                if L[j].strip()=='' : break
                j-=1
            if not L[j].rstrip().endswith('-/'):
                bad+=1; print(f"{f[len('/verif/lean/Verif/'):]}:{i+1}: {l[:90]}")
print(bad)
