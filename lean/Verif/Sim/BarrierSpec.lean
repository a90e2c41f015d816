import Mathlib.Analysis.SpecialFunctions.Exp

/-! # Barrier options: what they are worth on a path

Nothing here refers to scripts. -/

namespace Dal.Barrier

/-- The barrier is reached on one of the dates. -/
def Touched (B : ℝ) (spots : List ℝ) : Prop := ∃ s ∈ spots, B ≤ s

open Classical in
/-- An up-and-out call (an up-and-in call if `kin`) on a path: the discounted payoff of the call, if the barrier has not (has) been reached. -/
noncomputable def worth (kin : Bool) (B K : ℝ) (spots : List ℝ) (last numeraire : ℝ) : ℝ :=
  if kin = true ↔ Touched B spots then max 0 (last - K) / numeraire else 0

/-- The degree to which `x` is above zero, with a band of width `w` about zero. -/
noncomputable def degree (w x : ℝ) : ℝ := if x < -(w / 2) then 0 else if w / 2 < x then 1 else (x + w / 2) / w

/-- The part of an up-and-out option that one date leaves: degrees within `eps` of zero or one are rounded. -/
noncomputable def left (eps w x : ℝ) : ℝ := if 1 - eps < degree w x then 0 else if degree w x < eps then 1 else 1 - degree w x

/-- The part of it that a list of dates leaves. -/
noncomputable def alive (eps w B : ℝ) (spots : List ℝ) : ℝ := (spots.map fun s => left eps w (s - B)).prod

/-- The smoothed option: what is left is alive, the rest has been knocked in. -/
noncomputable def smoothWorth (kin : Bool) (eps w B K : ℝ) (spots : List ℝ) (last numeraire : ℝ) : ℝ :=
  (if kin then 1 - alive eps w B spots else alive eps w B spots) * (max 0 (last - K) / numeraire)

end Dal.Barrier
