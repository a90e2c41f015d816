import Verif.Strings.SettingsModel
import Verif.Script.EventModel
import Mathlib.Algebra.Field.Defs

/-! # Model of valuations from a sheet (public/src/value.cpp, public/excel/__value.cpp, public/excel/__script.cpp, public/src/script.hpp)

The simulation is a parameter: for a number of paths it gives the aggregated value and the risks, or fails. Numbers are those of a field, so the value is `none` where `double` gives
NaN (zero paths). Keys of the maps are compared as `String_` compares them, ignoring case. -/

namespace Dal.Valued
open Strings Date Dict Settings Script.Events

/-! ### The table of results -/

/-- `m[k] = v` for `std::map<String_, V>`: the value of an equal key is replaced and the key stays as it was first written. -/
def mapAssign {V : Type} (sgn : Bool) (k : Str) (v : V) : List (Str × V) → List (Str × V)
  | [] => [(k, v)]
  | (k', v') :: m =>
    if ltS sgn k k' then (k, v) :: (k', v') :: m
    else if ltS sgn k' k then (k', v') :: mapAssign sgn k v m
    else (k', v) :: m

/-- The constructor of `SimResults_`, simulation.hpp:24-27: the place in `risks_` of each name. -/
def places (sgn : Bool) (names : List Str) : List (Str × Nat) := names.zipIdx.foldl (fun m e => mapAssign sgn e.1 e.2 m) []

/-- `SimResults_::operator[]`, simulation.hpp:33-35. A name that is not there is a null pointer that is read (`none`). -/
def riskOf {K : Type} (sgn : Bool) (names : List Str) (risks : List K) (name : Str) : Option K := (Strings.mapFind sgn name (places sgn names)).bind fun i => risks[i]?

/-- `aggregated_ / static_cast<double>(n_paths)`, value.cpp:36 and 42; `none` is NaN. -/
def average {K : Type} [DivisionRing K] (agg : K) (n : Int) : Option K := if n = 0 then none else some (agg / n)

/-- `MODEL_STORE.find(modelType) != MODEL_STORE.end()`, value.cpp:15-18 and 30. -/
def known (sgn : Bool) (modelType : Str) : Bool := ["BSModelData_".toList, "DupireModelData_".toList].any fun k => eqS sgn modelType k

/-- The loop of value.cpp:37-38. -/
def risksOn {K : Type} (sgn : Bool) (names : List Str) (risks : List K) : List Str → List (Str × Option K) → Option (List (Str × Option K))
  | [], m => some m
  | n :: ns, m => (riskOf sgn names risks n).bind fun r => risksOn sgn names risks ns (mapAssign sgn ("d_".toList ++ n) (some r) m)

/-- `ValueByMonteCarlo`, value.cpp:22-46; `none` is an exception. `names` are the labels of the model and the constants of the product. The rows of the sheet (__value.cpp:46-52) are
the entries of the map in order. -/
def valueTable {K : Type} [DivisionRing K] (sgn : Bool) (modelType : Str) (aad : Bool) (n : Int) (names : List Str) (sim : Int → Option (K × List K)) :
    Option (List (Str × Option K)) :=
  if known sgn modelType then
    (sim n).bind fun r =>
      if aad then risksOn sgn names r.2 names (mapAssign sgn "PV".toList (average r.1 n) [])
      else some (mapAssign sgn "PV".toList (average r.1 n) [])
  else none

/-! ### Products from a sheet -/

/-- One cell of `Product_New`, __script.cpp:47-50; `none` is an exception. -/
def sheetDate : Cell → Option Cell
  | .num q => (toInt (.num q)).map fun n => .date (fromExcel n)
  | c => some c

/-- `Product_New`, __script.cpp:46-51. -/
def sheetDates (cs : List Cell) : Option (List Cell) := cs.mapM sheetDate

/-- How `ParseEvents` sees a row, event.cpp:20-26 and 61. -/
def rowOf (N : NumText) (c : Cell) (t : Str) : Option Row :=
  match c with
  | .date d => some (.dated d.serial t)
  | c => (toStr N c).map fun desc => .named desc t

/-- `ScriptProductData_::Product`, event.hpp: the constructor of `ScriptProduct_` asks for as many dates as events and parses them. -/
def product {E : Type} (L : Lib E) (N : NumText) (sgn : Bool) (evalDate : Nat) (cells : List Cell) (texts : List Str) : Option (Product E) :=
  if cells.length = texts.length then ((cells.zip texts).mapM fun e => rowOf N e.1 e.2).bind (parseEvents L sgn evalDate) else none

/-- A product of `Product_New` when it is used. -/
def sheetProduct {E : Type} (L : Lib E) (N : NumText) (sgn : Bool) (evalDate : Nat) (cells : List Cell) (texts : List Str) : Option (Product E) :=
  (sheetDates cells).bind fun cs => product L N sgn evalDate cs texts

/-- `DebugScriptProduct`, script.hpp:20-26, and `Product_Debug`, __script.cpp:55-58, for the text of the product: `none` is an exception. -/
def debugLines (text : Str) : Option (List Str) := if text = [] then none else some (split '\n' true text)

end Dal.Valued
