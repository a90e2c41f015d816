import Verif.Time.HolidayTextModel

/-!
# Model of the built-in data (dal/time/calendars, dal/currency, dal/platform/initall.cpp)

The tables are copied from the headers.  Every call runs alone (the initialisers hold a mutex).  The thread pool and the tape set
up by `RegisterAll_` are left out.
-/

namespace Dal.BuiltIn
open Dal.Strings Dal.Date Dal.HolText

/-- `China::SSE::HOLIDAYS`, china.hpp:9-91. -/
def sseTable : List (Int × Int × Int) :=
  [(2005, 1, 3), (2005, 2, 7), (2005, 2, 8), (2005, 2, 9), (2005, 2, 10), (2005, 2, 11),
   (2005, 2, 14), (2005, 2, 15), (2005, 5, 2), (2005, 5, 3), (2005, 5, 4), (2005, 5, 5),
   (2005, 5, 6), (2005, 10, 3), (2005, 10, 4), (2005, 10, 5), (2005, 10, 6), (2005, 10, 7),
   (2006, 1, 2), (2006, 1, 3), (2006, 1, 26), (2006, 1, 27), (2006, 1, 30), (2006, 1, 31),
   (2006, 2, 1), (2006, 2, 2), (2006, 2, 3), (2006, 5, 1), (2006, 5, 2), (2006, 5, 3),
   (2006, 5, 4), (2006, 5, 5), (2006, 10, 2), (2006, 10, 3), (2006, 10, 4), (2006, 10, 5),
   (2006, 10, 6), (2007, 1, 1), (2007, 1, 2), (2007, 1, 3), (2007, 2, 19), (2007, 2, 20),
   (2007, 2, 21), (2007, 2, 22), (2007, 2, 23), (2007, 5, 1), (2007, 5, 2), (2007, 5, 3),
   (2007, 5, 4), (2007, 5, 7), (2007, 10, 1), (2007, 10, 2), (2007, 10, 3), (2007, 10, 4),
   (2007, 10, 5), (2007, 12, 31), (2008, 1, 1), (2008, 2, 6), (2008, 2, 7), (2008, 2, 8),
   (2008, 2, 11), (2008, 2, 12), (2008, 4, 4), (2008, 5, 1), (2008, 5, 2), (2008, 6, 9),
   (2008, 9, 15), (2008, 9, 29), (2008, 9, 30), (2008, 10, 1), (2008, 10, 2), (2008, 10, 3),
   (2009, 1, 1), (2009, 1, 2), (2009, 1, 26), (2009, 1, 27), (2009, 1, 28), (2009, 1, 29),
   (2009, 1, 30), (2009, 4, 6), (2009, 5, 1), (2009, 5, 28), (2009, 5, 29), (2009, 10, 1),
   (2009, 10, 2), (2009, 10, 5), (2009, 10, 6), (2009, 10, 7), (2009, 10, 8), (2010, 1, 1),
   (2010, 2, 15), (2010, 2, 16), (2010, 2, 17), (2010, 2, 18), (2010, 2, 19), (2010, 4, 5),
   (2010, 5, 3), (2010, 6, 14), (2010, 6, 15), (2010, 6, 16), (2010, 9, 22), (2010, 9, 23),
   (2010, 9, 24), (2010, 10, 1), (2010, 10, 4), (2010, 10, 5), (2010, 10, 6), (2010, 10, 7),
   (2011, 1, 3), (2011, 2, 2), (2011, 2, 3), (2011, 2, 4), (2011, 2, 7), (2011, 2, 8),
   (2011, 4, 4), (2011, 4, 5), (2011, 5, 2), (2011, 6, 6), (2011, 9, 12), (2011, 10, 3),
   (2011, 10, 4), (2011, 10, 5), (2011, 10, 6), (2011, 10, 7), (2012, 1, 2), (2012, 1, 3),
   (2012, 1, 23), (2012, 1, 24), (2012, 1, 25), (2012, 1, 26), (2012, 1, 27), (2012, 4, 2),
   (2012, 4, 3), (2012, 4, 4), (2012, 4, 30), (2012, 5, 1), (2012, 6, 22), (2012, 10, 1),
   (2012, 10, 2), (2012, 10, 3), (2012, 10, 4), (2012, 10, 5), (2013, 1, 1), (2013, 1, 2),
   (2013, 1, 3), (2013, 2, 11), (2013, 2, 12), (2013, 2, 13), (2013, 2, 14), (2013, 2, 15),
   (2013, 4, 4), (2013, 4, 5), (2013, 4, 29), (2013, 4, 30), (2013, 5, 1), (2013, 6, 10),
   (2013, 6, 11), (2013, 6, 12), (2013, 9, 19), (2013, 9, 20), (2013, 10, 1), (2013, 10, 2),
   (2013, 10, 3), (2013, 10, 4), (2013, 10, 7), (2014, 1, 1), (2014, 1, 31), (2014, 2, 3),
   (2014, 2, 4), (2014, 2, 5), (2014, 2, 6), (2014, 4, 7), (2014, 5, 1), (2014, 5, 2),
   (2014, 6, 2), (2014, 9, 8), (2014, 10, 1), (2014, 10, 2), (2014, 10, 3), (2014, 10, 6),
   (2014, 10, 7), (2015, 1, 1), (2015, 1, 2), (2015, 2, 18), (2015, 2, 19), (2015, 2, 20),
   (2015, 2, 23), (2015, 2, 24), (2015, 4, 6), (2015, 5, 1), (2015, 6, 22), (2015, 9, 3),
   (2015, 9, 4), (2015, 10, 1), (2015, 10, 2), (2015, 10, 5), (2015, 10, 6), (2015, 10, 7),
   (2016, 1, 1), (2016, 2, 8), (2016, 2, 9), (2016, 2, 10), (2016, 2, 11), (2016, 2, 12),
   (2016, 4, 4), (2016, 5, 2), (2016, 6, 9), (2016, 6, 10), (2016, 9, 15), (2016, 9, 16),
   (2016, 10, 3), (2016, 10, 4), (2016, 10, 5), (2016, 10, 6), (2016, 10, 7), (2017, 1, 2),
   (2017, 1, 27), (2017, 1, 30), (2017, 1, 31), (2017, 2, 1), (2017, 2, 2), (2017, 4, 3),
   (2017, 4, 4), (2017, 5, 1), (2017, 5, 29), (2017, 5, 30), (2017, 10, 2), (2017, 10, 3),
   (2017, 10, 4), (2017, 10, 5), (2017, 10, 6), (2018, 1, 1), (2018, 2, 15), (2018, 2, 16),
   (2018, 2, 19), (2018, 2, 20), (2018, 2, 21), (2018, 4, 5), (2018, 4, 6), (2018, 4, 30),
   (2018, 5, 1), (2018, 6, 18), (2018, 9, 24), (2018, 10, 1), (2018, 10, 2), (2018, 10, 3),
   (2018, 10, 4), (2018, 10, 5), (2018, 12, 31), (2019, 1, 1), (2019, 2, 4), (2019, 2, 5),
   (2019, 2, 6), (2019, 2, 7), (2019, 2, 8), (2019, 4, 5), (2019, 5, 1), (2019, 5, 2),
   (2019, 5, 3), (2019, 6, 7), (2019, 9, 13), (2019, 10, 1), (2019, 10, 2), (2019, 10, 3),
   (2019, 10, 4), (2019, 10, 7), (2020, 1, 1), (2020, 1, 24), (2020, 1, 27), (2020, 1, 28),
   (2020, 1, 29), (2020, 1, 30), (2020, 1, 31), (2020, 4, 6), (2020, 5, 1), (2020, 5, 4),
   (2020, 5, 5), (2020, 6, 25), (2020, 6, 26), (2020, 10, 1), (2020, 10, 2), (2020, 10, 5),
   (2020, 10, 6), (2020, 10, 7), (2020, 10, 8), (2021, 1, 1), (2021, 2, 11), (2021, 2, 12),
   (2021, 2, 15), (2021, 2, 16), (2021, 2, 17), (2021, 4, 5), (2021, 5, 3), (2021, 5, 4),
   (2021, 5, 5), (2021, 6, 14), (2021, 9, 20), (2021, 9, 21), (2021, 10, 1), (2021, 10, 4),
   (2021, 10, 5), (2021, 10, 6), (2021, 10, 7), (2022, 1, 3), (2022, 1, 31), (2022, 2, 1),
   (2022, 2, 2), (2022, 2, 3), (2022, 2, 4), (2022, 4, 4), (2022, 4, 5), (2022, 5, 2),
   (2022, 5, 3), (2022, 5, 4), (2022, 6, 3), (2022, 9, 12), (2022, 10, 3), (2022, 10, 4),
   (2022, 10, 5), (2022, 10, 6), (2022, 10, 7), (2023, 1, 2), (2023, 1, 23), (2023, 1, 24),
   (2023, 1, 25), (2023, 1, 26), (2023, 1, 27), (2023, 4, 5), (2023, 5, 1), (2023, 5, 2),
   (2023, 5, 3), (2023, 6, 22), (2023, 6, 23), (2023, 9, 29), (2023, 10, 2), (2023, 10, 3),
   (2023, 10, 4), (2023, 10, 5), (2023, 10, 6), (2024, 1, 1), (2024, 2, 9), (2024, 2, 12),
   (2024, 2, 13), (2024, 2, 14), (2024, 2, 15), (2024, 2, 16), (2024, 4, 4), (2024, 4, 5),
   (2024, 5, 1), (2024, 5, 2), (2024, 5, 3), (2024, 6, 10), (2024, 9, 16), (2024, 9, 17),
   (2024, 10, 1), (2024, 10, 2), (2024, 10, 3), (2024, 10, 4), (2024, 10, 7), (2025, 1, 1),
   (2025, 1, 28), (2025, 1, 29), (2025, 1, 30), (2025, 1, 31), (2025, 2, 3), (2025, 2, 4),
   (2025, 4, 4), (2025, 5, 1), (2025, 5, 2), (2025, 5, 5), (2025, 6, 2), (2025, 10, 1),
   (2025, 10, 2), (2025, 10, 3), (2025, 10, 6), (2025, 10, 7), (2025, 10, 8)]

/-- `China::IB::WORK_WEEKENDS`, china.hpp:95-126. -/
def wwTable : List (Int × Int × Int) :=
  [(2005, 2, 5), (2005, 2, 6), (2005, 4, 30), (2005, 5, 8), (2005, 10, 8), (2005, 10, 9),
   (2005, 12, 31), (2006, 1, 28), (2006, 4, 29), (2006, 4, 30), (2006, 9, 30), (2006, 12, 30),
   (2006, 12, 31), (2007, 2, 17), (2007, 2, 25), (2007, 4, 28), (2007, 4, 29), (2007, 9, 29),
   (2007, 9, 30), (2007, 12, 29), (2008, 2, 2), (2008, 2, 3), (2008, 5, 4), (2008, 9, 27),
   (2008, 9, 28), (2009, 1, 4), (2009, 1, 24), (2009, 2, 1), (2009, 5, 31), (2009, 9, 27),
   (2009, 10, 10), (2010, 2, 20), (2010, 2, 21), (2010, 6, 12), (2010, 6, 13), (2010, 9, 19),
   (2010, 9, 25), (2010, 9, 26), (2010, 10, 9), (2011, 1, 30), (2011, 2, 12), (2011, 4, 2),
   (2011, 10, 8), (2011, 10, 9), (2011, 12, 31), (2012, 1, 21), (2012, 1, 29), (2012, 3, 31),
   (2012, 4, 1), (2012, 4, 28), (2012, 9, 29), (2013, 1, 5), (2013, 1, 6), (2013, 2, 16),
   (2013, 2, 17), (2013, 4, 7), (2013, 4, 27), (2013, 4, 28), (2013, 6, 8), (2013, 6, 9),
   (2013, 9, 22), (2013, 9, 29), (2013, 10, 12), (2014, 1, 26), (2014, 2, 8), (2014, 5, 4),
   (2014, 9, 28), (2014, 10, 11), (2015, 1, 4), (2015, 2, 15), (2015, 2, 28), (2015, 9, 6),
   (2015, 10, 10), (2016, 2, 6), (2016, 2, 14), (2016, 6, 12), (2016, 9, 18), (2016, 10, 8),
   (2016, 10, 9), (2017, 1, 22), (2017, 2, 4), (2017, 4, 1), (2017, 5, 27), (2017, 9, 30),
   (2018, 2, 11), (2018, 2, 24), (2018, 4, 8), (2018, 4, 28), (2018, 9, 29), (2018, 9, 30),
   (2018, 12, 29), (2019, 2, 2), (2019, 2, 3), (2019, 4, 28), (2019, 5, 5), (2019, 9, 29),
   (2019, 10, 12), (2020, 1, 19), (2020, 4, 26), (2020, 5, 9), (2020, 6, 28), (2020, 9, 27),
   (2020, 10, 10), (2021, 2, 7), (2021, 2, 20), (2021, 4, 25), (2021, 5, 8), (2021, 9, 18),
   (2021, 9, 26), (2021, 10, 9), (2022, 1, 29), (2022, 1, 30), (2022, 4, 2), (2022, 4, 24),
   (2022, 5, 7), (2022, 10, 8), (2022, 10, 9), (2023, 1, 28), (2023, 1, 29), (2023, 4, 23),
   (2023, 5, 6), (2023, 6, 25), (2023, 10, 7), (2023, 10, 8), (2024, 2, 4), (2024, 2, 18),
   (2024, 4, 7), (2024, 4, 28), (2024, 5, 11), (2024, 9, 14), (2024, 9, 29), (2024, 10, 12),
   (2025, 1, 26), (2025, 2, 8), (2025, 4, 27), (2025, 9, 28), (2025, 10, 11)]

/-- The serials of a table. -/
def serials (l : List (Int × Int × Int)) : List Nat := l.map fun t => (mk' t.1 t.2.1 t.2.2).serial

/-- The holidays of the exchange. -/
def sseHols : List Nat := serials sseTable
/-- The working weekends of the interbank market. -/
def ibWws : List Nat := serials wwTable
/-- `tmp` of calendars/init.cpp:21-24: the ordered set of the dates of the exchange less one date, copied. -/
def ibHols : List Nat := (Hol.unique sseHols).filter fun d => d != (mk' 2024 2 9).serial

/-! ### Facts about currencies, currencydata.cpp -/

/-- `CcyDependent_`, currencydata.cpp:15-18: the default and the values of single keys. -/
structure Fact (κ α : Type) where
  background : Option α := none
  specific : List (κ × α) := []

/-- `SetDefault`, currencydata.cpp:25. -/
def Fact.setDefault {κ α : Type} (f : Fact κ α) (v : α) : Fact κ α := { f with background := some v }

/-- Writing to a `std::map`. -/
def assign {κ α : Type} [DecidableEq κ] (k : κ) (v : α) : List (κ × α) → List (κ × α)
  | [] => [(k, v)]
  | e :: r => if e.1 = k then (k, v) :: r else e :: assign k v r

/-- `Writer_::operator()`, currencydata.cpp:26. -/
def Fact.write {κ α : Type} [DecidableEq κ] (f : Fact κ α) (k : κ) (v : α) : Fact κ α := { f with specific := assign k v f.specific }

/-- `operator()`, currencydata.cpp:37-43; `none` is the exception. -/
def Fact.get {κ α : Type} [DecidableEq κ] (f : Fact κ α) (k : κ) : Option α :=
  match f.specific.find? fun e => e.1 = k with
  | some e => some e.2
  | none => f.background

/-! ### Initialisation -/

/-- The data of the process. -/
structure Global where
  st : St := ⟨[], [], []⟩
  /-- `Calendars_::init_` -/
  calInit : Bool := false
  /-- `CcyFacts_::init_` -/
  ccyInit : Bool := false
  /-- `IndexParsers_::init_` -/
  parserInit : Bool := false
  /-- `RegisterAll_::init_` -/
  allInit : Bool := false
  /-- `LiborFixDays()` -/
  fixDays : Fact Str Nat := {}
  /-- `LiborFixHolidays()` -/
  fixHols : Fact Str (List TCenter) := {}

/-- `AddCenter` on the process: unchanged with `false` for an exception. -/
def addTo (sgn : Bool) (g : Global) (city : Str) (hols wws : List Nat) : Global × Bool :=
  match HolText.addCenter sgn g.st.reg city hols wws with
  | some reg => ({ g with st := { g.st with reg := reg } }, true)
  | none => (g, false)

/-- `Calendars_::Init`, calendars/init.cpp:17-28: the process afterwards, and whether the call returned normally. -/
def calendarsInit (sgn : Bool) (g : Global) : Global × Bool :=
  if g.calInit then (g, true)
  else
    match addTo sgn g "CN.SSE".toList sseHols [] with
    | (g, false) => (g, false)
    | (g, true) =>
      match addTo sgn g "CN.IB".toList ibHols ibWws with
      | (g, false) => (g, false)
      | (g, true) => ({ g with calInit := true }, true)

/-- `CcyFacts_::Init`, currency/init.cpp:16-24. -/
def ccyInit {sgn : Bool} (s : Sorter sgn) (g : Global) : Global × Bool :=
  if g.ccyInit then (g, true)
  else
    let g := { g with fixDays := (g.fixDays.setDefault 2).write "CNY".toList 1 }
    match fromText s g.st "CN.IB".toList with
    | none => (g, false)
    | some h => ({ g with fixHols := g.fixHols.write "CNY".toList h, ccyInit := true }, true)

/-- `RegisterAll_`, initall.cpp:21-42, as far as calendars, facts and parsers go. -/
def registerAll {sgn : Bool} (s : Sorter sgn) (g : Global) : Global × Bool :=
  if g.allInit then (g, true)
  else
    match calendarsInit sgn g with
    | (g, false) => (g, false)
    | (g, true) =>
      match ccyInit s g with
      | (g, false) => (g, false)
      | (g, true) => ({ g with parserInit := true, allInit := true }, true)

/-- `Libor::StartFromFix(ccy, date)`, conventions.cpp:13-23: `none` is an exception, `some none` no return. -/
def liborStart (g : Global) (ccy : Str) (fix : Nat) : Option (Option Nat) :=
  match g.fixHols.get ccy, g.fixDays.get ccy with
  | some h, some n => some (Hol.startFromFix (h.map TCenter.toHol) n fix)
  | _, _ => none

end Dal.BuiltIn
