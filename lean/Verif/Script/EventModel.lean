import Verif.Strings.StringModel

/-! # Model of `ScriptProduct_::ParseEvents` (script/event.cpp:14-85)

A date is its serial number (`Date_` compares serial numbers).  Regular-expression replacement, the reading of
numbers, schedules and date texts, and the parser are parameters. -/

namespace Dal.Script.Events
open Dal.Strings

/-- What `ParseEvents` calls. -/
structure Lib (E : Type) where
  /-- `regex_replace(text, regex(name, icase), replacement)`: arguments name, replacement, text. -/
  subst : Str → Str → Str → Str
  isNumber : Str → Bool
  toDouble : Str → Rat
  /-- `ParseSchedule(Tokenize(desc))`: (start, end, fixing) dates, `none` when it throws. -/
  sched : Str → Option (List (Nat × Nat × Nat))
  dateText : Nat → Str
  /-- `Parser_(constVariables).Parse(text)`, `none` when it throws. -/
  parse : List (Str × Rat) → Str → Option (List E)

/-- One row of the table: a date or a description, and a text. -/
inductive Row
  | dated (d : Nat) (t : Str)
  | named (desc t : Str)

/-- The maps of lines 15-17; `std::map` is a list sorted by key. -/
structure St where
  macros : List (Str × Str) := []
  consts : List (Str × Rat) := []
  events : List (Nat × Str) := []

/-- Lines 46-49 and 67-70: append to the text of a date, or create it (`std::map<Date_, String_>`). -/
def addEvent (d : Nat) (t : Str) : List (Nat × Str) → List (Nat × Str)
  | [] => [(d, t)]
  | (k, v) :: m =>
    if d < k then (d, t) :: (k, v) :: m
    else if d = k then (k, v ++ '\n' :: t) :: m
    else (k, v) :: addEvent d t m

variable {E : Type}

/-- Lines 29-32 and 63-65: the macros in the order of the map. -/
def replaceAll (L : Lib E) (macros : List (Str × Str)) (t : Str) : Str :=
  macros.foldl (fun x m => L.subst m.1 m.2 x) t

/-- Lines 39-44. -/
def period (L : Lib E) (t : Str) (s e : Nat) : Str :=
  L.subst "PeriodEnd".toList (L.dateText e) (L.subst "PeriodBegin".toList (L.dateText s) t)

/-- One row, lines 20-72; `none` when it throws. -/
def step (L : Lib E) (sgn : Bool) (s : St) : Row → Option St
  | .dated d t => some { s with events := addEvent d (replaceAll L s.macros t) s.events }
  | .named desc t =>
    if ':' ∈ desc then
      match L.sched desc with
      | none => none
      | some l =>
        some { s with events := l.foldl (fun m p => addEvent p.2.2 (period L (replaceAll L s.macros t) p.1 p.2.1) m) s.events }
    else if (mapFind sgn desc s.macros).isSome then none
    else if (mapFind sgn desc s.consts).isSome then none
    else if s.events ≠ [] then none
    else if L.isNumber t then some { s with consts := mapInsert sgn desc (L.toDouble t) s.consts }
    else some { s with macros := mapInsert sgn desc t s.macros }

/-- The loop over the rows. -/
def rows (L : Lib E) (sgn : Bool) : List Row → St → Option St
  | [], s => some s
  | r :: rs, s =>
    match step L sgn s r with
    | none => none
    | some s' => rows L sgn rs s'

/-- `pastEventDates_`/`pastEvents_` and `eventDates_`/`events_`. -/
structure Product (E : Type) where
  past : List (Nat × List E) := []
  future : List (Nat × List E) := []

/-- Lines 74-84. -/
def distribute (L : Lib E) (consts : List (Str × Rat)) (evalDate : Nat) : List (Nat × Str) → Product E → Option (Product E)
  | [], p => some p
  | (d, t) :: m, p =>
    match L.parse consts t with
    | none => none
    | some e =>
      if evalDate ≤ d then distribute L consts evalDate m { p with future := p.future ++ [(d, e)] }
      else distribute L consts evalDate m { p with past := p.past ++ [(d, e)] }

/-- `ParseEvents`. -/
def parseEvents (L : Lib E) (sgn : Bool) (evalDate : Nat) (rs : List Row) : Option (Product E) :=
  match rows L sgn rs {} with
  | none => none
  | some s => distribute L s.consts evalDate s.events {}

end Dal.Script.Events
