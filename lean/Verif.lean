import Verif.Block.Props
import Verif.Groups.Props
import Verif.Factor.Props
import Verif.Kbd.Props
import Verif.Allreduce.Props
import Verif.FD.Props
import Verif.Cheb.Props
import Verif.Coord.Props
import Verif.Wrap.Props
import Verif.Kpt.Props
import Verif.Brent.Props
import Verif.Occ.Props
import Verif.Solver.Props
import Verif.Mixing.Props
import Verif.Density.Props
import Verif.MD.Props
import Verif.NPT.Props
import Verif.Lap.Props
import Verif.Halo.Props
import Verif.Relax.Props
import Verif.Grid.Props
import Verif.D2D.Props
import Verif.Layout.Props
import Verif.Dims.Props
import Verif.Socket.Props
import Verif.Path.Props
import Verif.Files.Props
import Verif.DyArr.Props
import Verif.Rand.Props
import Verif.Kron.Props
import Verif.Spline.Props
import Verif.Neigh.Props
import Verif.Train.Props
import Verif.Sph.Props
import Verif.Xc.Props
import Verif.Vxc.Props
import Verif.Infl.Props
import Verif.Nloc.Props
import Verif.Bloch.Props
import Verif.Grad.Props
import Verif.Ham.Props
import Verif.Spectral.Props
import Verif.Ace.Props
import Verif.D3.Props
import Verif.Mgga.Props
import Verif.Sq.Props
import Verif.Pchg.Props
import Verif.Pres.Props
import Verif.Force.Props
import Verif.Soc.Props
import Verif.Hub.Props
import Verif.Scf.Props
import Verif.Extrap.Props
import Verif.Cube.Props
import Verif.Band.Props
import Verif.Restart.Props
import Verif.Exx.Props
import Verif.Ofdft.Props
import Verif.Bdry.Props
import Verif.Wire.Props
import Verif.Cell.Props
import Verif.Kern.Props
import Verif.Pred.Props
import Verif.Resid.Props
