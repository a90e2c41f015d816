import Verif.Time.DateTextProps
import Verif.Time.DayBasisProps

/-! # Year fractions, independently of scripts -/

namespace Dal.Dcf
open Dal.Date Dal.DayBasis Dal.Spec

/-- The day bases a script can use. -/
inductive Basis
  | act365F | act360 | actAct | bond
  deriving DecidableEq

/-- Their names, in capitals and without blanks and underscores. -/
def Basis.names : Basis → List (List Char)
  | .act365F => ["ACT365F".toList, "ACT/365F".toList, "ACT365FIXED".toList, "ACT/365FIXED".toList]
  | .act360 => ["ACT360".toList, "ACT/360".toList, "MONEY".toList, "ACTUAL/360".toList]
  | .actAct => ["ACTACT".toList, "ACT/ACT".toList, "ACTUAL/ACTUAL".toList]
  | .bond => ["BOND".toList, "30360".toList, "30/360".toList, "30360US".toList]

/-- The part of a year from `a` to `b`: days over 365 or 360; each day over the length of its year; months of 30 days. -/
def Basis.years : Basis → Date → Date → Rat
  | .act365F, a, b => ((b.serial : Rat) - a.serial) / 365
  | .act360, a, b => ((b.serial : Rat) - a.serial) / 360
  | .actAct, a, b => actActSpec a (b.serial - a.serial)
  | .bond, a, b => (360 * ((year b : Rat) - year a) + 30 * ((month b : Rat) - month a) + ((day b : Rat) - day a)) / 360

/-- Where the day basis itself is what it should be (C14): ACT/ACT up to 2034-01-01, 30/360 from the 1st to 29th of a month other than February. -/
def Basis.Sound : Basis → Date → Date → Prop
  | .act365F, _, _ => True
  | .act360, _, _ => True
  | .actAct, a, b => a.serial < b.serial ∧ b.serial ≤ (mk' 2034 1 1).serial
  | .bond, a, _ => month a ≠ 2 ∧ day a ≤ 29

/-- The dates that can be written and read back (C06). -/
def Readable (d : Date) : Prop := d.Valid ∧ (before (ymd d) (2034, 3, 1) ∨ ¬ before (ymd d) (2100, 3, 1))

end Dal.Dcf
