import Verif.Sim.BarrierSpec

/-! # C114: the snowball, independently of scripts

An autocallable note: on each date of a schedule the spot is compared with two levels.  At the first date above the upper level the note ends and pays its coupon for the years since
the start.  If that never happens, it pays at maturity: the loss (or gain) of the spot against the strike if the spot was ever below the lower level, its coupon otherwise. -/

namespace Dal.Snowball

/-- A date: the spot, the numeraire, and the years since the start. -/
structure Look where
  spot : ℝ
  numeraire : ℝ
  years : ℝ

/-- The terms of the note. -/
structure Terms where
  lower : ℝ
  upper : ℝ
  coupon : ℝ
  strike : ℝ

open Classical in
/-- What the note is worth on a path with the given dates before maturity, and maturity. -/
noncomputable def worth (t : Terms) (before : List Look) (last : Look) : ℝ :=
  match (before ++ [last]).find? (fun d => t.upper < d.spot) with
  | some d => t.coupon * d.years / d.numeraire
  | none =>
    if ∃ d ∈ before ++ [last], d.spot < t.lower then (last.spot - t.strike) / last.numeraire else t.coupon * last.years / last.numeraire

/-- The smoothed note, with `free` the part of it that has not been knocked in yet: a date calls one part of what is left, and knocks in one part of what is free.  `Barrier.left` is what
a date leaves of the part that was there. -/
noncomputable def smoothWorth (eps w : ℝ) (t : Terms) (last : Look) : List Look → ℝ → ℝ
  | [], free =>
    (1 - Barrier.left eps w (last.spot - t.upper)) * (t.coupon * last.years / last.numeraire) +
      Barrier.left eps w (last.spot - t.upper) *
        ((1 - free * Barrier.left eps w (t.lower - last.spot)) * ((last.spot - t.strike) / last.numeraire) +
          free * Barrier.left eps w (t.lower - last.spot) * (t.coupon * last.years / last.numeraire))
  | d :: ds, free =>
    (1 - Barrier.left eps w (d.spot - t.upper)) * (t.coupon * d.years / d.numeraire) +
      Barrier.left eps w (d.spot - t.upper) * smoothWorth eps w t last ds (free * Barrier.left eps w (t.lower - d.spot))

end Dal.Snowball
