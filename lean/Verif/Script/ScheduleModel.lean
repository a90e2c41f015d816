import Verif.Time.StepModel
import Verif.Time.DateTextModel

/-! # Model of the schedules of a script (script/event/schedule.cpp)

The tokens are texts; `Date::FromString`, `Date::ParseIncrement`, the names of business-day rules and
the adjustment of dates are the models of dates and tenors.  Calendars read from a text and the pin
dates (`DateGenerate`) are parameters. -/

namespace Dal.Script.Sched
open Dal.Strings Dal.Date

/-- The outcome of a call: a value, an exception, undefined behaviour, or no return. -/
inductive Out (α : Type) where
  | ok (a : α)
  | throw
  | ub
  | hang
  deriving DecidableEq, Repr

/-- Going on after success. -/
def Out.bind {α β : Type} (r : Out α) (f : α → Out β) : Out β :=
  match r with
  | .ok a => f a
  | .throw => .throw
  | .ub => .ub
  | .hang => .hang

/-- `none` is an exception. -/
def Out.ofOption {α : Type} : Option α → Out α
  | some a => .ok a
  | none => .throw

/-- The local variables, schedule.cpp:18-25 (`Date_()` has serial 0; `none` is the null handle). -/
structure Cfg where
  start : Date := ⟨0⟩
  stop : Date := ⟨0⟩
  tenor : Option (List Incr.Single) := none
  hols : Hol.Hols := []
  biz : Str := "Unadjusted".toList
  fixEnd : Bool := true

/-- What is called. -/
structure Lib where
  /-- `char` is signed. -/
  sgn : Bool
  /-- `Holidays_(text)`; `none` is an exception. -/
  parseHols : Str → Option Hol.Hols
  /-- `DateGenerate(start, end, tenor, "Forward")`, schedules.cpp:19-47; `none` does not return. -/
  pins : Date → Date → List Incr.Single → Option (List Date)

/-- The five tokens `year - month - day` of START and END, schedule.cpp:31-34 and 38-41; the iterator
`begin() + i + 7` must not pass the end. -/
def dateTokens (toks : List Str) : Out Date :=
  if toks.length < 5 then .ub else .ofOption (DateText.fromString (toks.take 5).flatten)

/-- The loop, schedule.cpp:27-60, on the tokens from `i` on.  It stops when at most two are left.
FIXING does not skip its value. -/
def loop (L : Lib) (c : Cfg) : List Str → Out Cfg
  | name :: colon :: v :: rest =>
    if !eqS L.sgn colon ":".toList then .throw
    else if eqS L.sgn name "START".toList then
      (dateTokens (v :: rest)).bind fun d => loop L { c with start := d } (rest.drop 4)
    else if eqS L.sgn name "END".toList then
      (dateTokens (v :: rest)).bind fun d => loop L { c with stop := d } (rest.drop 4)
    else if eqS L.sgn name "FREQ".toList then
      (Out.ofOption (Incr.parseIncrement L.sgn L.parseHols v)).bind fun t => loop L { c with tenor := some t } rest
    else if eqS L.sgn name "CALENDAR".toList then
      (Out.ofOption (L.parseHols v)).bind fun h => loop L { c with hols := h } rest
    else if eqS L.sgn name "BizRule".toList then
      (Out.ofOption (readEnum L.sgn bizDayConventionTable v)).bind fun b => loop L { c with biz := b } rest
    else if eqS L.sgn name "FIXING".toList then
      if eqS L.sgn v "BEGIN".toList then loop L { c with fixEnd := false } (colon :: v :: rest)
      else if eqS L.sgn v "END".toList then loop L { c with fixEnd := true } (colon :: v :: rest)
      else .throw
    else .throw
  | _ => .ok c
  termination_by toks => toks.length
  decreasing_by all_goals (simp only [List.length_cons, List.length_drop]; omega)

/-- `MakeSchedule` with the rule "Forward", schedules.cpp:49-70: only two of the business-day rules
are implemented. -/
def makeSchedule (L : Lib) (c : Cfg) : Out (List Nat) :=
  match c.tenor with
  | none => .ub
  | some t =>
    match L.pins c.start c.stop t with
    | none => .hang
    | some ds =>
      if c.biz = "Following".toList then
        match Incr.adjust c.hols true ds with
        | some r => .ok r
        | none => .hang
      else if c.biz = "Unadjusted".toList then
        match Incr.adjust c.hols false ds with
        | some r => .ok r
        | none => .hang
      else if ds = [] then .ok [] else .throw

/-- The result, schedule.cpp:69-75: (begin, end, fixing) of consecutive dates. -/
def periods (fixEnd : Bool) : List Nat → List (Nat × Nat × Nat)
  | a :: b :: r => (a, b, if fixEnd then b else a) :: periods fixEnd (b :: r)
  | _ => []

/-- `ParseSchedule`, schedule.cpp:16-77.  `tokens.size() - 2` wraps around for fewer than two tokens,
and `tokens[1]` is then read out of bounds. -/
def parseSchedule (L : Lib) (toks : List Str) : Out (List (Nat × Nat × Nat)) :=
  if toks.length < 2 then .ub
  else (loop L {} toks).bind fun c => (makeSchedule L c).bind fun s => .ok (periods c.fixEnd s)

end Dal.Script.Sched
