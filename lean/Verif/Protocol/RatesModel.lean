import Verif.Strings.EnumTables

/-!
# Traded rates

`/repo/dal/protocol/couponrate.cpp`, with `PeriodLength_::Months` (`/repo/dal/time/periodlength.cpp` 14–27). The enumerated types are those of
`/repo/dal/auto`, here with their unset value; the texts are in `EnumTables`. Throwing is `none`.
-/

namespace Dal.Protocol

open Dal.Strings

/-- `TradedRate_::Value_` (`/repo/dal/auto/MG_TradedRate_enum.hpp` 6–15). -/
inductive Rate where
  | notSet | libor3mCme | libor3mLch | libor3mFut | libor6mCme | libor6mLch
  deriving DecidableEq

/-- `PeriodLength_::Value_` (`/repo/dal/auto/MG_PeriodLength_enum.hpp` 6–14). -/
inductive Period where
  | notSet | annual | semiannual | quarterly | monthly
  deriving DecidableEq

/-- `Clearer_::Value_` (`/repo/dal/auto/MG_Clearer_enum.hpp` 6–12). -/
inductive Clearer where
  | notSet | cme | lch
  deriving DecidableEq

/-- The value of an enumerator of `PeriodLength_`. -/
def Period.ofName (v : Str) : Period :=
  if v = "ANNUAL".toList then .annual else if v = "SEMIANNUAL".toList then .semiannual
  else if v = "QUARTERLY".toList then .quarterly else if v = "MONTHLY".toList then .monthly else .notSet

/-- The constructor of `PeriodLength_` from text (`MG_PeriodLength_enum.inc` 40–78). -/
def Period.read (sgn : Bool) (s : Str) : Option Period := (readEnum sgn periodLengthTable s).map Period.ofName

/-- `PeriodLength_::Months` (`periodlength.cpp` 14–27). -/
def Period.months : Period → Option Nat
  | .annual => some 12
  | .semiannual => some 6
  | .quarterly => some 3
  | .monthly => some 1
  | .notSet => none

/-- `TradedRate_::Period` (`couponrate.cpp` 14–29); the results are constructed from the texts "3M" and "6M". -/
def Rate.period (sgn : Bool) : Rate → Option Period
  | .libor3mCme | .libor3mLch | .libor3mFut => Period.read sgn "3M".toList
  | .libor6mCme | .libor6mLch => Period.read sgn "6M".toList
  | .notSet => none

/-- `TradedRate_::Clearer` (`couponrate.cpp` 34–46). -/
def Rate.clearer : Rate → Option Clearer
  | .libor3mCme | .libor3mFut | .libor6mCme => some .cme
  | .libor3mLch | .libor6mLch => some .lch
  | .notSet => none

/-- `FindRate` (`couponrate.cpp` 48–74). -/
def findRate (period : Period) (clearer : Clearer) : Option Rate :=
  match clearer with
  | .lch =>
    match period.months with
    | some 3 => some .libor3mLch
    | some 6 => some .libor6mLch
    | _ => none
  | .cme =>
    match period.months with
    | some 3 => some .libor3mCme
    | some 6 => some .libor6mCme
    | _ => none
  | .notSet => none

end Dal.Protocol
