import Verif.Pde.FdModel
import Verif.Interp.CubicModel

/-!
# Rolling back a payoff

Source: `examples/european_fd/european_fd.cpp`, the caller of `FD1D_` (`dal/math/pde/fd1d.hpp`) in the repository; the steps themselves are in `Pde/FdModel.lean`.

Simplifications: doubles are elements of an ordered field (real numbers for the market); the payoff and the values given to the
edges are parameters.
-/

namespace Dal.Fd
open Dal.Tri

variable {K : Type} [Field K] [LinearOrder K] [IsStrictOrderedRing K]

/-- The values of both edges are overwritten (`european_fd.cpp` 66–67). -/
def setEdges (e : K × K) (res : Sized K) : Sized K := ⟨res.size, upd (upd res.v 0 e.1) (res.size - 1) e.2⟩

/-- The loop over the time steps (`european_fd.cpp` 64–68): a step back, then the edges of that time. -/
def rollLoop (eps : K) (dt theta : K) (edge : Nat → K × K) (s : Solver K) (res : Sized K) : Nat → Option (Solver K × Sized K)
  | 0 => some (s, res)
  | k + 1 => (rollLoop eps dt theta edge s res k).bind fun p => (rollBwd eps p.1 dt theta p.2).bind fun q => some (q.1, setEdges (edge (k + 1)) q.2)

/-- The values after `steps` steps of a payoff under a market (`european_fd.cpp` 52–68): drift, rate and variance at the points of the grid, the payoff there, the loop. -/
def european (eps : K) (x : Mesh K) (rate div vol dt theta : K) (payoff : K → K) (edge : Nat → K × K) (steps : Nat) : Option (Sized K) :=
  (init x ⟨x.n, fun _ => rate⟩ ⟨x.n, fun i => (rate - div) * x.loc i⟩ ⟨x.n, fun i => vol * vol * x.loc i * x.loc i⟩).bind fun s =>
    (rollLoop eps dt theta edge s ⟨x.n, fun i => payoff (x.loc i)⟩ steps).map (·.2)

/-- The price printed (`european_fd.cpp` 70–73): a spline through the values on the grid, with second derivative zero at both ends, at the spot. -/
def fdPrice (eps : K) (x : Mesh K) (rate div vol dt theta : K) (payoff : K → K) (edge : Nat → K × K) (steps : Nat) (spot : K) : Option K :=
  (european eps x rate div vol dt theta payoff edge steps).bind fun res =>
    (Interp.newCubic x.n res.size x.loc res.v ⟨2, 0⟩ ⟨2, 0⟩).map fun c => c.eval spot

end Dal.Fd
