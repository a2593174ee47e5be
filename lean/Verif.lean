import Verif.UnionFind.Props
import Verif.Common.MixedRadix
import Verif.Parallel.Props
import Verif.Lattice.Props
import Verif.Mesh.Props
import Verif.Mesh.Cofaces
import Verif.Graph.Props
import Verif.TrackGraph.Props
import Verif.HK.Props
import Verif.Dijkstra.Props
import Verif.Curve.Props
import Verif.SoS.Props
import Verif.Num.Linear
import Verif.Num.Link
import Verif.Rational.Props
import Verif.Interval.Props
import Verif.Poly.Props
import Verif.Roots.Props
import Verif.CPType.Props
import Verif.FixedPoint.Props
import Verif.Ndarray.Props
import Verif.Ndarray.Stats
import Verif.Ndarray.Mlerp
import Verif.Serial.Props
import Verif.Comm.Props
import Verif.Comm.Redist
import Verif.Stream.Props
import Verif.KD.Props
import Verif.ContourTree.Props
import Verif.UMesh.Props
import Verif.UMesh.Part
import Verif.XMesh.Props
import Verif.Tracker.Online
import Verif.Tracker.CurveProps
import Verif.Tracker.Findings
import Verif.Quad.Props
import Verif.RegMesh.Props
import Verif.Ode.Props
import Verif.Grad.Props
import Verif.Conv.Props
import Verif.Num.Gradient
import Verif.Num.Norm
import Verif.Num.EigVec
import Verif.Roots.Complex
import Verif.Contour.Props
import Verif.Contour.VolumeProps
import Verif.Contour.Demo
import Verif.Surf.Relabel
import Verif.Surf.Slice
import Verif.Surf.Curves
import Verif.Surf.Discard
import Verif.Surf.Reorient
import Verif.SoS.Degenerate
import Verif.UTrk.Examples
import Verif.Num.Hit
import Verif.CLine.Demo
import Verif.Swirl.Demo
import Verif.Tdgl.Demo
import Verif.Trace.Props
import Verif.Ineq.Props
import Verif.Ineq.Rational
import Verif.U3Mesh.Props
import Verif.X3Mesh.Props
import Verif.X3Trk.Curves
import Verif.X3Trk.Line
import Verif.X3Trk.Lines
import Verif.X3Trk.Examples
import Verif.XGC.Demo
import Verif.XBlob.Demo
import Verif.PV.Demo
import Verif.Cell.Quad
import Verif.Cell.Degree
import Verif.Cell.Wachspress
import Verif.Thresh.Props
import Verif.Deg.Props
import Verif.NdStream.AsyncProps
import Verif.NdStream.NcProps
import Verif.NdStream.SyncProps
import Verif.MPAS.Layers
import Verif.MPAS.PointIn
import Verif.MPAS.Locate
import Verif.MPAS.Ids
import Verif.MPAS.C2V
import Verif.MPAS.Eval
import Verif.MPAS.Seeds
import Verif.Fil.Detect
import Verif.Fil.Surfaces
import Verif.Fil.Bfs
import Verif.Fil.Curves
import Verif.Synth.Flows
import Verif.Synth.Scalars
import Verif.APtr.Props
import Verif.Comm.Bcast
import Verif.Str.Props
import Verif.Smooth.Grad
import Verif.Smooth.Kernel
import Verif.Smooth.Blur
import Verif.XG2.Roi
import Verif.XG2.Lines
import Verif.XG2.Fields
import Verif.XStr.Props
import Verif.Tube.Topo
import Verif.Tube.Geom
import Verif.Hash.Mix
import Verif.Hash.Cache
import Verif.ExMesh.Cells
import Verif.ExMesh.Sides
import Verif.NcWrite.Config
import Verif.NcWrite.Props
import Verif.Smooth3.Kernel
import Verif.Smooth3.Blur
import Verif.FFMesh.Props
import Verif.MatOps.Props
import Verif.MatOps.Interp
import Verif.Vtu.Props
import Verif.RatIneq.Props
import Verif.Color.Props
import Verif.Filter.Props
