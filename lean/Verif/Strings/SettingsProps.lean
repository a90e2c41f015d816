import Verif.Strings.SettingsModel
import Verif.Strings.DictionaryProps

/-! # C93: kinds of cells, settings from dictionaries -/

namespace Dal
open Settings Dict Under Strings DateText

private theorem data_eq (sgn : Bool) (c : Controls Rat) : data sgn c = some [("BACKTRACKTOLERANCE".toList, .num c.backtrackTolerance), ("MAXBACKTRACK".toList, .num c.maxBacktrack),
    ("MAXBACKTRACKTRIES".toList, .num c.maxBacktrackTries), ("MAXEVALUATIONS".toList, .num c.maxEvaluations), ("MAXRESTARTS".toList, .num c.maxRestarts),
    ("RESTARTTOLERANCE".toList, .num c.restartTolerance)] := by
  cases sgn <;> rfl

/-! ### Cells -/

/-- C93, integers: a cell is an integer exactly when it holds one of less than 2147483647 in size, or a truth value, which is one or zero. -/
theorem C93_int (c : Dict.Cell) (n : Int) : toInt c = some n ↔ (c = .num n ∧ |n| < 2147483647) ∨ (c = .bool true ∧ n = 1) ∨ (c = .bool false ∧ n = 0) := by
  cases c with
  | num q =>
    simp only [toInt, reduceCtorEq, false_and, or_false, Dict.Cell.num.injEq]
    constructor
    · intro h
      obtain ⟨m, hm, h⟩ := Option.bind_eq_some_iff.1 h
      split_ifs at h with hq
      obtain rfl := Option.some.inj h
      have hl : |q| < 2147483647 := by
        by_contra hl
        rw [asInt, if_neg hl] at hm
        simp at hm
      refine ⟨hq.symm, ?_⟩
      rw [← hq] at hl
      exact_mod_cast hl
    · rintro ⟨rfl, hn⟩
      rw [asInt_int n hn]
      simp
  | bool b => cases b <;> simp [toInt, eq_comm]
  | blank => simp [toInt]
  | str s => simp [toInt]
  | date d => simp [toInt]
  | dateTime t => simp [toInt]

example : toInt (.num 12) = some 12 ∧ toInt (.num (1 / 2)) = none ∧ toInt (.bool true) = some 1 ∧ toInt (.str "12".toList) = none := by decide +kernel

/-- C93, kinds: a number, or a truth value as one or zero, is a number; truth values, dates and times are only themselves. -/
theorem C93_kinds (c : Dict.Cell) : (∀ q, toDouble c = some q ↔ c = .num q ∨ (c = .bool true ∧ q = 1) ∨ (c = .bool false ∧ q = 0)) ∧ (∀ b, toTruth c = some b ↔ c = .bool b) ∧
    (∀ d, toDate c = some d ↔ c = .date d) ∧ ∀ t, toDateTime c = some t ↔ c = .dateTime t := by
  refine ⟨fun q => ?_, fun b => ?_, fun d => ?_, fun t => ?_⟩
  · cases c with
    | bool b => cases b <;> simp [toDouble, eq_comm]
    | _ => simp [toDouble]
  all_goals cases c <;> simp [toTruth, toDate, toDateTime]

example : toDouble (.num (1 / 2)) = some (1 / 2) ∧ toTruth (.num 1) = none ∧ toDouble .blank = none := by decide +kernel

/-- C93, the question for integers: below the limit of integers it is answered rightly. -/
theorem C93_is_int (q : Rat) (hq : |q| < 2147483647) : ∃ b, isInt (.num q) = some b ∧ (b = true ↔ ∃ n : Int, (n : Rat) = q) := by
  obtain ⟨n, hn⟩ : ∃ n, asInt q = some n := ⟨_, if_pos hq⟩
  refine ⟨decide ((n : Rat) = q), by simp [isInt, hn], ?_⟩
  rw [decide_eq_true_eq]
  refine ⟨fun h => ⟨n, h⟩, fun ⟨m, hm⟩ => ?_⟩
  rw [← hm] at hq hn
  rw [asInt_int m (by exact_mod_cast hq)] at hn
  rw [← hm, ← Option.some.inj hn]

example : isInt (.num (-3)) = some true ∧ isInt (.num (7 / 2)) = some false := by decide +kernel

/-- C93 fails for large numbers: the question for integers throws, and so do both conversions to text. -/
theorem C93_is_int_violated (N : NumText) (q : Rat) (hq : 2147483647 ≤ |q|) : isInt (.num q) = none ∧ toStr N (.num q) = none ∧ coerce N (.num q) = none := by
  simp [isInt, toStr, coerce, asInt, not_lt.2 hq]

example : (2147483647 : Rat) ≤ |30000000000 + 1 / 2| := by norm_num

private theorem eqS_iff_words (sgn : Bool) : eqS sgn "true".toList "TRUE".toList = true ∧ eqS sgn "false".toList "TRUE".toList = false ∧ eqS sgn "false".toList "FALSE".toList = true ∧
    eqS sgn "TRUE".toList "TRUE".toList = true ∧ eqS sgn "FALSE".toList "TRUE".toList = false ∧ eqS sgn "FALSE".toList "FALSE".toList = true := by
  cases sgn <;> decide +kernel

/-- C93, texts of cells: what survives as an entry of a dictionary comes back from its text, unless it is a text of the words for truth values; empty cells and, unlike in dictionaries, truth
values come back as well. -/
theorem C93_convert (sgn : Bool) (N : NumText) : (∀ c, Survives N c → (∀ s, c = .str s → eqS sgn s "TRUE".toList = false ∧ eqS sgn s "FALSE".toList = false) →
      (coerce N c).bind (convertString sgn N) = some c) ∧
    (coerce N .blank).bind (convertString sgn N) = some .blank ∧
    (N.read "true".toList = none → N.read "false".toList = none → ∀ b, (coerce N (.bool b)).bind (convertString sgn N) = some (.bool b)) ∧
    (N.read "TRUE".toList = none → N.read "FALSE".toList = none → ∀ b, (toStr N (.bool b)).bind (convertString sgn N) = some (.bool b)) := by
  obtain ⟨w1, w2, w3, w4, w5, w6⟩ := eqS_iff_words sgn
  have d1 : isDateString "true".toList = false ∧ isDateTimeString "true".toList = false ∧ isDateString "false".toList = false ∧ isDateTimeString "false".toList = false ∧
      isDateString "TRUE".toList = false ∧ isDateTimeString "TRUE".toList = false ∧ isDateString "FALSE".toList = false ∧ isDateTimeString "FALSE".toList = false := by decide +kernel
  refine ⟨fun c ⟨t, h1, h2, _, _, h5⟩ hw => ?_, rfl, fun r1 r2 b => ?_, fun r1 r2 b => ?_⟩
  · rw [h1, Option.bind_some, convertString, if_neg h2]
    unfold readCell at h5
    split_ifs at h5 with a b c'
    · rw [if_pos a, h5]
    · rw [if_neg a, if_pos b, h5]
    · rw [if_neg a, if_neg b, if_pos c', h5]
    · obtain rfl := Option.some.inj h5
      obtain ⟨e1, e2⟩ := hw t rfl
      rw [if_neg a, if_neg b, if_neg c', e1, e2]
      rfl
  · cases b with
    | true =>
      show convertString sgn N "true".toList = _
      rw [convertString, if_neg (by decide), r1, if_neg (by simp), d1.1, if_neg (by simp), d1.2.1, if_neg (by simp), w1, if_pos rfl]
    | false =>
      show convertString sgn N "false".toList = _
      rw [convertString, if_neg (by decide), r2, if_neg (by simp), d1.2.2.1, if_neg (by simp), d1.2.2.2.1, if_neg (by simp), w2, if_neg (by simp), w3, if_pos rfl]
  · cases b with
    | true =>
      show convertString sgn N "TRUE".toList = _
      rw [convertString, if_neg (by decide), r1, if_neg (by simp), d1.2.2.2.2.1, if_neg (by simp), d1.2.2.2.2.2.1, if_neg (by simp), w4, if_pos rfl]
    | false =>
      show convertString sgn N "FALSE".toList = _
      rw [convertString, if_neg (by decide), r2, if_neg (by simp), d1.2.2.2.2.2.2.1, if_neg (by simp), d1.2.2.2.2.2.2.2, if_neg (by simp), w5, if_neg (by simp), w6, if_pos rfl]

example : convertString true intReader "fAlse".toList = some (.bool false) ∧ convertString true intReader "12".toList = some (.num 12) ∧
    convertString true intReader "hello".toList = some (.str "hello".toList) := by decide +kernel

/-- C93 fails for texts that are words of truth values in any case, and for texts of numbers: they come back as truth values and numbers. -/
theorem C93_words_violated (sgn : Bool) (N : NumText) (hr : N.read "True".toList = none) (q : Rat) (s : Strings.Str) (hs : s ≠ []) (hq : N.read s = some q) :
    (coerce N (.str "True".toList)).bind (convertString sgn N) = some (.bool true) ∧ (coerce N (.str s)).bind (convertString sgn N) = some (.num q) := by
  constructor
  · show convertString sgn N "True".toList = _
    have d1 : isDateString "True".toList = false ∧ isDateTimeString "True".toList = false := by decide +kernel
    have w : eqS sgn "True".toList "TRUE".toList = true := by cases sgn <;> decide +kernel
    rw [convertString, if_neg (by decide), hr, if_neg (by simp), d1.1, if_neg (by simp), d1.2, if_neg (by simp), w, if_pos rfl]
  · show convertString sgn N s = _
    rw [convertString, if_neg hs, hq]
    rfl

example : intReader.read "True".toList = none ∧ intReader.read "007".toList = some 7 := by decide +kernel

/-! ### Settings -/

/-- The value of a setting: that of its entry, or the default when there is no entry. -/
def SettingIs {α : Type} (sgn : Bool) (d : Dict.Dictionary) (key : Strings.Str) (translate : Dict.Cell → Option α) (defVal : Option α) (v : α) : Prop :=
  (∃ cell, Strings.mapFind sgn key d = some cell ∧ translate cell = some v) ∨ (Strings.mapFind sgn key d = none ∧ defVal = some v)

private theorem extract_iff {α : Type} (sgn : Bool) (d : Dict.Dictionary) (key : Strings.Str) (hk : condensed key = key) (tr : Dict.Cell → Option α) (v : α) :
    extract sgn d key tr = some v ↔ SettingIs sgn d key tr none v := by
  rw [extract, lookup, hk, SettingIs]
  cases Strings.mapFind sgn key d <;> simp

private theorem extractOr_iff {α : Type} (sgn : Bool) (d : Dict.Dictionary) (key : Strings.Str) (hk : condensed key = key) (tr : Dict.Cell → Option α) (v w : α) :
    extractOr sgn d key tr w = some v ↔ SettingIs sgn d key tr (some w) v := by
  rw [extractOr, lookup, has, hk, SettingIs]
  cases Strings.mapFind sgn key d <;> simp

/-- C93, settings: controls are made exactly when the entries, with defaults for four of the six, are of the right kinds and meet the conditions; they are the values of these entries. Other
entries do not matter. -/
theorem C93_settings (sgn : Bool) (d : Dict.Dictionary) (c : Controls Rat) : make sgn d = some c ↔
    (SettingIs sgn d "MAXEVALUATIONS".toList toInt none c.maxEvaluations ∧ SettingIs sgn d "MAXRESTARTS".toList toInt none c.maxRestarts ∧
      SettingIs sgn d "MAXBACKTRACKTRIES".toList toInt (some 5) c.maxBacktrackTries ∧ SettingIs sgn d "RESTARTTOLERANCE".toList toDouble (some (2 / 5)) c.restartTolerance ∧
      SettingIs sgn d "BACKTRACKTOLERANCE".toList toDouble (some (1 / 10)) c.backtrackTolerance ∧ SettingIs sgn d "MAXBACKTRACK".toList toDouble (some (4 / 5)) c.maxBacktrack) ∧
    c.valid := by
  rw [← extract_iff sgn d _ (by decide +kernel), ← extract_iff sgn d _ (by decide +kernel), ← extractOr_iff sgn d _ (by decide +kernel), ← extractOr_iff sgn d _ (by decide +kernel),
    ← extractOr_iff sgn d _ (by decide +kernel), ← extractOr_iff sgn d _ (by decide +kernel)]
  unfold make
  constructor
  · intro h
    simp only [Option.bind_eq_bind, Option.bind_eq_some_iff] at h
    obtain ⟨e, he, r, hr, b, hb, rt, hrt, bt, hbt, mb, hmb, h⟩ := h
    split_ifs at h with hv
    obtain rfl := Option.some.inj h
    exact ⟨⟨he, hr, hb, hrt, hbt, hmb⟩, hv⟩
  · rintro ⟨⟨he, hr, hb, hrt, hbt, hmb⟩, hv⟩
    rw [he, hr, hb, hrt, hbt, hmb]
    exact if_pos hv

example : make true [("MAXEVALUATIONS".toList, .num 100), ("MAXRESTARTS".toList, .num 10), ("NOTE".toList, .blank)] = some (Controls.default 100 10) := by
  have := (C93_settings true [("MAXEVALUATIONS".toList, .num 100), ("MAXRESTARTS".toList, .num 10), ("NOTE".toList, .blank)] (Controls.default 100 10)).2
  refine this ⟨⟨Or.inl ⟨_, rfl, ?_⟩, Or.inl ⟨_, rfl, ?_⟩, Or.inr ⟨rfl, rfl⟩, Or.inr ⟨rfl, rfl⟩, Or.inr ⟨rfl, rfl⟩, Or.inr ⟨rfl, rfl⟩⟩, ?_⟩
  · exact (C93_int _ _).2 (Or.inl ⟨by norm_num [Controls.default], by decide⟩)
  · exact (C93_int _ _).2 (Or.inl ⟨by norm_num [Controls.default], by decide⟩)
  · norm_num [Controls.valid, Controls.default]

private theorem data_built (sgn : Bool) (c : Controls Rat) : ∀ d, data sgn c = some d → DictBuilt sgn d := by
  intro d h
  unfold data at h
  simp only [Option.bind_eq_bind, Option.bind_eq_some_iff] at h
  obtain ⟨d1, h1, d2, h2, d3, h3, d4, h4, d5, h5, h6⟩ := h
  exact .insert _ _ (.insert _ _ (.insert _ _ (.insert _ _ (.insert _ _ (.insert _ _ .empty h1) h2) h3) h4) h5) h6

/-- C93, round trip: controls that meet the conditions come back from their dictionary. -/
theorem C93_roundtrip (sgn : Bool) (c : Controls Rat) (hc : c.valid) (he : c.maxEvaluations < 2147483647) (hr : c.maxRestarts < 2147483647) (ht : |c.maxBacktrackTries| < 2147483647) :
    (data sgn c).bind (make sgn) = some c := by
  rw [data_eq, Option.bind_some]
  refine (C93_settings sgn _ c).2 ⟨⟨Or.inl ⟨.num c.maxEvaluations, ?_, ?_⟩, Or.inl ⟨.num c.maxRestarts, ?_, ?_⟩, Or.inl ⟨.num c.maxBacktrackTries, ?_, ?_⟩, Or.inl ⟨.num c.restartTolerance, ?_, rfl⟩,
    Or.inl ⟨.num c.backtrackTolerance, ?_, rfl⟩, Or.inl ⟨.num c.maxBacktrack, ?_, rfl⟩⟩, hc⟩
  · cases sgn <;> rfl
  · exact (C93_int _ _).2 (Or.inl ⟨rfl, abs_lt.2 ⟨by have := hc.1; omega, he⟩⟩)
  · cases sgn <;> rfl
  · exact (C93_int _ _).2 (Or.inl ⟨rfl, abs_lt.2 ⟨by have := hc.2.1; omega, hr⟩⟩)
  · cases sgn <;> rfl
  · exact (C93_int _ _).2 (Or.inl ⟨rfl, ht⟩)
  all_goals cases sgn <;> rfl

example : (Controls.default 100 10 : Controls Rat).valid := by norm_num [Controls.valid, Controls.default]

/-- C93, round trip through text: with tolerances that survive as entries, controls come back from the text of their dictionary. -/
theorem C93_text_partial (sgn : Bool) (N : NumText) (hN : NumSpec N) (c : Controls Rat) (hc : c.valid) (he : c.maxEvaluations < 2147483647) (hr : c.maxRestarts < 2147483647)
    (ht : |c.maxBacktrackTries| < 2147483647) (h1 : Survives N (.num c.restartTolerance)) (h2 : Survives N (.num c.backtrackTolerance)) (h3 : Survives N (.num c.maxBacktrack)) :
    ∃ d s, data sgn c = some d ∧ toText N d = some s ∧ (fromText sgn N s).bind (make sgn) = some c := by
  have hd := data_eq sgn c
  have hb := data_built sgn c _ hd
  obtain ⟨s, hs, hf⟩ := C20_text_roundtrip sgn N hb (by
      intro e hm
      simp only [List.mem_cons, List.not_mem_nil, or_false] at hm
      rcases hm with h | h | h | h | h | h <;> subst h <;> dsimp only <;> decide +kernel) (by
      intro e hm
      simp only [List.mem_cons, List.not_mem_nil, or_false] at hm
      rcases hm with h | h | h | h | h | h <;> subst h
      · exact h2
      · exact h3
      · exact C20_int_survives N hN _ ht
      · exact C20_int_survives N hN _ (abs_lt.2 ⟨by have := hc.1; omega, he⟩)
      · exact C20_int_survives N hN _ (abs_lt.2 ⟨by have := hc.2.1; omega, hr⟩)
      · exact h1)
  refine ⟨_, s, hd, hs, ?_⟩
  rw [hf, ← hd]
  exact C93_roundtrip sgn c hc he hr ht

example : (⟨100, 10, 5, 1, -1, 0⟩ : Controls Rat).valid ∧ Survives intReader (.num 0) ∧ Survives intReader (.num 1) ∧ Survives intReader (.num (-1)) := by
  refine ⟨by norm_num [Controls.valid], ?_, ?_, ?_⟩
  · exact C20_int_survives _ intReader_spec 0 (by decide)
  · exact C20_int_survives _ intReader_spec 1 (by decide)
  · exact C20_int_survives _ intReader_spec (-1) (by decide)

/-- C93 fails through text for numbers of more than six decimals: a largest backtracking of 0.9999999 is written as one, and the controls are then refused. -/
theorem C93_text_violated (sgn : Bool) (N : NumText) (hN : NumSpec N) (hw : N.write (9999999 / 10000000) = "1.000000".toList) (hr : N.read "1.000000".toList = some 1) :
    (⟨100, 10, 5, 0, 0, 9999999 / 10000000⟩ : Controls Rat).valid ∧
    ∃ d s, data sgn ⟨100, 10, 5, 0, 0, 9999999 / 10000000⟩ = some d ∧ toText N d = some s ∧ fromText sgn N s ≠ none ∧ (fromText sgn N s).bind (make sgn) = none := by
  refine ⟨by norm_num [Controls.valid], _, "BACKTRACKTOLERANCE=0;MAXBACKTRACK=1.000000;MAXBACKTRACKTRIES=5;MAXEVALUATIONS=100;MAXRESTARTS=10;RESTARTTOLERANCE=0".toList, data_eq sgn _, ?_, ?_⟩
  · have c1 : coerce N (.num (9999999 / 10000000)) = some "1.000000".toList := by
      have h : asInt (9999999 / 10000000) = some 0 := by decide +kernel
      simp only [coerce, h, Option.map_some]
      rw [if_neg (by norm_num), hw]
    have c2 : ∀ n : Int, |n| < 2147483647 → coerce N (.num n) = some (intText n) := fun n hn => by simp [coerce, asInt_int n hn]
    have c0 := c2 0 (by decide)
    have c5 := c2 5 (by decide)
    have c100 := c2 100 (by decide)
    have c10 := c2 10 (by decide)
    simp only [Int.cast_zero] at c0
    simp only [toText, toTextLoop, c0, c1, c5, c10, c100, Option.bind_some]
    decide +kernel
  · have hp : split ';' false "BACKTRACKTOLERANCE=0;MAXBACKTRACK=1.000000;MAXBACKTRACKTRIES=5;MAXEVALUATIONS=100;MAXRESTARTS=10;RESTARTTOLERANCE=0".toList =
        ["BACKTRACKTOLERANCE=0".toList, "MAXBACKTRACK=1.000000".toList, "MAXBACKTRACKTRIES=5".toList, "MAXEVALUATIONS=100".toList, "MAXRESTARTS=10".toList, "RESTARTTOLERANCE=0".toList] := by
      decide +kernel
    have entry : ∀ (d : Dict.Dictionary) (p k v : Strings.Str) (q : Rat), split '=' true p = [k, v] → k ≠ [] → N.read v = some q → readEntry sgn N d p = Dict.insert sgn d k (.num q) := by
      intro d p k v q h1 h2 h3
      simp [readEntry, h1, h2, readCell, h3]
    have r0 : N.read "0".toList = some 0 := hN.int 0 (by decide)
    have r5 : N.read "5".toList = some ((5 : Int) : Rat) := hN.int 5 (by decide)
    have r10 : N.read "10".toList = some ((10 : Int) : Rat) := hN.int 10 (by decide)
    have r100 : N.read "100".toList = some ((100 : Int) : Rat) := hN.int 100 (by decide)
    have hf : fromText sgn N "BACKTRACKTOLERANCE=0;MAXBACKTRACK=1.000000;MAXBACKTRACKTRIES=5;MAXEVALUATIONS=100;MAXRESTARTS=10;RESTARTTOLERANCE=0".toList = data sgn ⟨100, 10, 5, 0, 0, 1⟩ := by
      have e1 := fun d => entry d "BACKTRACKTOLERANCE=0".toList "BACKTRACKTOLERANCE".toList "0".toList 0 (by decide +kernel) (by decide) r0
      have e2 := fun d => entry d "MAXBACKTRACK=1.000000".toList "MAXBACKTRACK".toList "1.000000".toList 1 (by decide +kernel) (by decide) hr
      have e3 := fun d => entry d "MAXBACKTRACKTRIES=5".toList "MAXBACKTRACKTRIES".toList "5".toList _ (by decide +kernel) (by decide) r5
      have e4 := fun d => entry d "MAXEVALUATIONS=100".toList "MAXEVALUATIONS".toList "100".toList _ (by decide +kernel) (by decide) r100
      have e5 := fun d => entry d "MAXRESTARTS=10".toList "MAXRESTARTS".toList "10".toList _ (by decide +kernel) (by decide) r10
      have e6 := fun d => entry d "RESTARTTOLERANCE=0".toList "RESTARTTOLERANCE".toList "0".toList 0 (by decide +kernel) (by decide) r0
      rw [fromText, hp, data_eq]
      simp only [List.foldlM_cons, List.foldlM_nil, e1, e2, e3, e4, e5, e6]
      cases sgn <;> rfl
    rw [hf, data_eq]
    refine ⟨by simp, ?_⟩
    rw [Option.bind_some, Option.eq_none_iff_forall_ne_some]
    intro c hc
    obtain ⟨⟨-, -, -, -, -, h6⟩, hv⟩ := (C93_settings sgn _ c).1 hc
    have hm : Strings.mapFind sgn "MAXBACKTRACK".toList [("BACKTRACKTOLERANCE".toList, Dict.Cell.num 0), ("MAXBACKTRACK".toList, .num 1), ("MAXBACKTRACKTRIES".toList, .num (5 : Int)),
        ("MAXEVALUATIONS".toList, .num (100 : Int)), ("MAXRESTARTS".toList, .num (10 : Int)), ("RESTARTTOLERANCE".toList, .num 0)] = some (.num 1) := by cases sgn <;> rfl
    rcases h6 with ⟨cell, e, t⟩ | ⟨e, -⟩
    · dsimp only at e
      rw [hm] at e
      obtain rfl := Option.some.inj e
      have h1 := hv.2.2.2.2
      rw [← Option.some.inj t] at h1
      exact absurd h1 (lt_irrefl _)
    · dsimp only at e
      rw [hm] at e
      simp at e

example : ∃ N, NumSpec N ∧ N.write (9999999 / 10000000) = "1.000000".toList ∧ N.read "1.000000".toList = some 1 := by
  refine ⟨⟨fun s => if s = "1.000000".toList then some 1 else intReader.read s, fun _ => "1.000000".toList⟩, ⟨fun n hn => ?_, fun t ht => ?_⟩, rfl, by decide +kernel⟩
  · dsimp only
    rw [if_neg, intReader_spec.int n hn]
    intro h
    rcases intText_chars n '.' (by rw [h]; decide) with h | h <;> simp at h
  · dsimp only
    rw [if_neg, intReader_spec.rejects t ht]
    rintro rfl
    exact absurd ht (by decide +kernel)

/-- C93 fails for empty entries of settings that have defaults: they are not the defaults but refused. -/
theorem C93_empty_violated (sgn : Bool) (d : Dict.Dictionary) (key : Strings.Str)
    (hk : key ∈ ["MAXBACKTRACKTRIES".toList, "RESTARTTOLERANCE".toList, "BACKTRACKTOLERANCE".toList, "MAXBACKTRACK".toList]) (h : Strings.mapFind sgn key d = some .blank) :
    make sgn d = none := by
  rw [Option.eq_none_iff_forall_ne_some]
  intro c hc
  obtain ⟨⟨-, -, h3, h4, h5, h6⟩, -⟩ := (C93_settings sgn d c).1 hc
  simp only [List.mem_cons, List.not_mem_nil, or_false] at hk
  rcases hk with rfl | rfl | rfl | rfl
  · rcases h3 with ⟨cell, e, t⟩ | ⟨e, _⟩ <;> rw [h] at e <;> simp_all [toInt]
    subst e; simp at t
  · rcases h4 with ⟨cell, e, t⟩ | ⟨e, _⟩ <;> rw [h] at e <;> simp_all [toDouble]
    subst e; simp at t
  · rcases h5 with ⟨cell, e, t⟩ | ⟨e, _⟩ <;> rw [h] at e <;> simp_all [toDouble]
    subst e; simp at t
  · rcases h6 with ⟨cell, e, t⟩ | ⟨e, _⟩ <;> rw [h] at e <;> simp_all [toDouble]
    subst e; simp at t

example : Strings.mapFind true "MAXBACKTRACK".toList ([("MAXBACKTRACK".toList, .blank), ("MAXEVALUATIONS".toList, .num 100), ("MAXRESTARTS".toList, .num 10)] : Dict.Dictionary) = some .blank := by rfl

/-- C93 fails for the largest integer, which would mean without limit: it is refused. -/
theorem C93_unlimited_violated (sgn : Bool) (d : Dict.Dictionary) (h : Strings.mapFind sgn "MAXEVALUATIONS".toList d = some (fromInt 2147483647)) : make sgn d = none := by
  rw [Option.eq_none_iff_forall_ne_some]
  intro c hc
  obtain ⟨⟨h1, -⟩, -⟩ := (C93_settings sgn d c).1 hc
  rcases h1 with ⟨cell, e, t⟩ | ⟨-, e⟩
  · rw [h] at e
    obtain rfl := Option.some.inj e
    rcases (C93_int _ _).1 t with ⟨e, hl⟩ | ⟨e, -⟩ | ⟨e, -⟩
    · simp only [fromInt, Dict.Cell.num.injEq] at e
      have : c.maxEvaluations = 2147483647 := by exact_mod_cast e.symm
      rw [this] at hl
      exact absurd hl (by decide)
    · simp [fromInt] at e
    · simp [fromInt] at e
  · simp at e

example : Strings.mapFind true "MAXEVALUATIONS".toList [("MAXEVALUATIONS".toList, fromInt 2147483647), ("MAXRESTARTS".toList, .num 10)] = some (fromInt 2147483647) := by rfl

private theorem findLoop_no_tries {m n : Nat} (debug : Bool) (P : Problem Rat m n) (c : Controls Rat) (ht : c.maxBacktrackTries.toNat = 0) : ∀ (fuel : Nat) (xOld : Fin n → Rat)
    (fOld : Fin m → Rat) (J : Matrix (Fin m) (Fin n) Rat) (approx restart : Bool) (ev gr : Int) (x : Fin n → Rat), (findLoop debug P c fuel xOld fOld J approx restart ev gr).out ≠ .ok x := by
  intro fuel
  induction fuel with
  | zero => intro _ _ _ _ _ _ _ _; simp [findLoop]
  | succ fuel ih =>
    intro xOld fOld J approx restart ev gr x
    unfold findLoop
    split
    · simp
    · dsimp only
      generalize (if restart = true then divideRows P.tol (P.grad xOld) else J) = J1
      cases P.step fOld J1 with
      | none => simp
      | some s =>
        rw [ht]
        simp only [backtrack]
        split
        · split
          · exact ih _ _ _ _ _ _ _ _
          · simp
        · split
          · exact ih _ _ _ _ _ _ _ _
          · simp

/-- C93 fails for the number of backtracking tries, which has no condition: controls without tries are made, and no search with them finds a point, not even one that begins at a solution. -/
theorem C93_tries_violated (sgn : Bool) (tries : Int) (h0 : tries ≤ 0) (hl : |tries| < 2147483647) {m n : Nat} (debug : Bool) (P : Problem Rat m n) (guess : Fin n → Rat) (fuel : Nat) :
    ∃ c, make sgn [("MAXBACKTRACKTRIES".toList, fromInt tries), ("MAXEVALUATIONS".toList, fromInt 100), ("MAXRESTARTS".toList, fromInt 10)] = some c ∧
      ∀ x, (find debug P guess c fuel).out ≠ .ok x := by
  refine ⟨⟨100, 10, tries, 2 / 5, 1 / 10, 4 / 5⟩, (C93_settings sgn _ _).2 ⟨⟨Or.inl ⟨fromInt 100, ?_, ?_⟩, Or.inl ⟨fromInt 10, ?_, ?_⟩, Or.inl ⟨fromInt tries, ?_, ?_⟩, Or.inr ⟨?_, rfl⟩,
    Or.inr ⟨?_, rfl⟩, Or.inr ⟨?_, rfl⟩⟩, by norm_num [Controls.valid]⟩, fun x => ?_⟩
  · cases sgn <;> rfl
  · exact (C93_int _ _).2 (Or.inl ⟨rfl, by norm_num⟩)
  · cases sgn <;> rfl
  · exact (C93_int _ _).2 (Or.inl ⟨rfl, by norm_num⟩)
  · cases sgn <;> rfl
  · exact (C93_int _ _).2 (Or.inl ⟨rfl, hl⟩)
  · cases sgn <;> rfl
  · cases sgn <;> rfl
  · cases sgn <;> rfl
  · have ht : tries.toNat = 0 := by omega
    unfold find
    rw [if_pos (show (0 : Int) < 100 by decide)]
    exact findLoop_no_tries debug P _ ht fuel guess _ _ _ _ _ _ x

example : |(0 : Int)| < 2147483647 := by decide

end Dal
