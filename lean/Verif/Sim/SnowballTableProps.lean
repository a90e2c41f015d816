import Verif.Sim.SnowballProps
import Verif.Sim.TableLemmas

/-! # C115: the table of the snowball example becomes the events of C114

The rows are those of `examples/snowball/snowball.cpp` lines 46–69. -/

namespace Dal
open Dal.Strings Dal.Script.Events Dal.Report

/-- The text of the row of the schedule (lines 62–64): the date of the period is left open. -/
def snowOpen (a : Date.Date) : Str :=
  snowHead ++ ' ' :: (dcfText "ACT365F".toList (' ' :: DateText.toString' a) (' ' :: "PeriodEnd".toList) ++ ' ' :: "alive = 0 end".toList)

/-- The table: four numbers, the start, the schedule and the maturity. -/
def snowTable (ki ko strike coupon sched : Str) (start maturity : Date.Date) : List Row :=
  [.named lowName ki, .named highName ko, .named strikeName strike, .named couponName coupon, .dated start.serial snowFirst, .named sched (snowOpen start),
    .dated maturity.serial (snowLast start maturity)]

private theorem digit_lower {c : Char} (h : c.isDigit = true ∨ c = '-') : c.toLower = c ∧ ¬ c.isAlpha = true := by
  rcases h with h | rfl
  · simp only [Char.isDigit, Bool.and_eq_true, decide_eq_true_eq] at h
    have h1 : c.val.toNat ≤ 57 := h.2
    have h2 : ¬ c.isUpper = true := by
      simp only [Char.isUpper, Bool.and_eq_true, decide_eq_true_eq, not_and]
      intro h3
      have h4 : 65 ≤ c.val.toNat := h3
      omega
    have h3 : ¬ c.isLower = true := by
      simp only [Char.isLower, Bool.and_eq_true, decide_eq_true_eq, not_and]
      intro h3
      have h4 : 97 ≤ c.val.toNat := h3
      omega
    refine ⟨?_, by simp [Char.isAlpha, h2, h3]⟩
    have h5 : ¬ (65 ≤ c.val.toNat ∧ c.val.toNat ≤ 90) := by omega
    unfold Char.toLower
    rw [dif_neg]
    intro h6
    exact h5 h6
  · exact ⟨by decide, by decide⟩

private theorem date_without {d : Date.Date} (h : d.Valid) (x : Char) (hx : x.toLower.isAlpha = true) : ∀ c ∈ DateText.toString' d, c.toLower ≠ x.toLower := by
  intro c hc he
  obtain ⟨h1, h2⟩ := digit_lower (date_chars h c hc)
  rw [h1] at he
  rw [he] at h2
  exact h2 hx

/-- What comes before the dates. -/
private def front : Str := snowHead ++ " DCF(ACT365F, ".toList
/-- What comes behind them. -/
private def back : Str := " alive = 0 end".toList

private theorem texts_eq (h a e : Str) : h ++ ' ' :: (dcfText "ACT365F".toList (' ' :: a) (' ' :: e) ++ ' ' :: "alive = 0 end".toList) =
    ((h ++ " DCF(ACT365F, ".toList) ++ a) ++ ',' :: ([] ++ ' ' :: (e ++ ')' :: " alive = 0 end".toList)) := by
  simp [dcfText]

private theorem open_eq (a : Date.Date) : snowOpen a = (front ++ DateText.toString' a) ++ ',' :: ([] ++ ' ' :: ("PeriodEnd".toList ++ ')' :: back)) :=
  texts_eq snowHead (DateText.toString' a) "PeriodEnd".toList

private theorem watch_eq (a e : Date.Date) : snowWatch a e = (front ++ DateText.toString' a) ++ ',' :: ([] ++ ' ' :: (DateText.toString' e ++ ')' :: back)) :=
  texts_eq snowHead (DateText.toString' a) (DateText.toString' e)

private theorem front_without : (∀ c ∈ front, c.toLower ≠ 'r'.toLower) ∧ ∀ c ∈ front, c.toLower ≠ 'g'.toLower := by decide +kernel

private theorem back_without : (∀ c ∈ back, c.toLower ≠ 'r'.toLower) ∧ ∀ c ∈ ',' :: ([] ++ ' ' :: ("PeriodEnd".toList ++ ')' :: back)), c.toLower ≠ 'g'.toLower := by decide +kernel

/-- C115: in the row of the schedule `PeriodEnd` becomes the date. -/
theorem C115_snowball_period {E : Type} (L : Lib E) (hL : L.subst = Script.Macro.subst) (hd : ∀ n, L.dateText n = DateText.toString' ⟨n⟩) {a : Date.Date} (ha : a.Valid) (s : Nat) (e : Date.Date) :
    period L (snowOpen a) s e.serial = snowWatch a e := by
  have h1 : Script.Macro.subst "PeriodBegin".toList (L.dateText s) (snowOpen a) = snowOpen a := by
    refine C115_letter _ _ _ (x := 'g') (by decide) ?_
    intro c hc
    rw [open_eq, List.mem_append, List.mem_append] at hc
    rcases hc with (hc | hc) | hc
    · exact front_without.2 c hc
    · exact date_without ha 'g' (by decide) c hc
    · exact back_without.2 c hc
  have hn : "PeriodEnd".toList ≠ [] := by decide
  rw [period, hL, h1, hd, open_eq, watch_eq, C115_pieces _ _ hn ',' (by decide), C115_pieces _ _ hn ' ' (by decide), C115_pieces _ _ hn ')' (by decide), C115_word _ _ _ hn rfl,
    C115_letter _ _ back (x := 'r') (by decide) back_without.1, C115_letter _ _ [] (x := 'r') (by decide) (by simp), C115_letter _ _ (front ++ _) (x := 'r') (by decide)]
  intro c hc
  rcases List.mem_append.1 hc with hc | hc
  · exact front_without.1 c hc
  · exact date_without ha 'r' (by decide) c hc

private theorem four_numbers {E : Type} (L : Lib E) (sgn : Bool) {a b c d p q r t : Str} (hp : L.isNumber p = true) (hq : L.isNumber q = true) (hr : L.isNumber r = true) (ht : L.isNumber t = true)
    (ca : ':' ∉ a) (cb : ':' ∉ b) (cc : ':' ∉ c) (cd : ':' ∉ d) (hab : ltS sgn a b = true) (hbc : ltS sgn b c = true) (hda : ltS sgn d a = true) (hba : ltS sgn b a = false) (hcb : ltS sgn c b = false)
    (had : ltS sgn a d = false) (hac : ltS sgn a c = true) (hca : ltS sgn c a = false) (hdb : ltS sgn d b = true) (hbd : ltS sgn b d = false) (hdc : ltS sgn d c = true) (hcd : ltS sgn c d = false)
    (rs : List Row) :
    rows L sgn (.named a p :: .named b q :: .named c r :: .named d t :: rs) {} = rows L sgn rs { consts := [(d, L.toDouble t), (a, L.toDouble p), (b, L.toDouble q), (c, L.toDouble r)] } := by
  have r1 : step L sgn {} (.named a p) = some { consts := [(a, L.toDouble p)] } := by simp [step, ca, hp, mapFind, mapInsert]
  have r2 : step L sgn { consts := [(a, L.toDouble p)] } (.named b q) = some { consts := [(a, L.toDouble p), (b, L.toDouble q)] } := by
    simp [step, cb, hq, mapFind, mapInsert, hab, hba]
  have r3 : step L sgn { consts := [(a, L.toDouble p), (b, L.toDouble q)] } (.named c r) = some { consts := [(a, L.toDouble p), (b, L.toDouble q), (c, L.toDouble r)] } := by
    simp [step, cc, hr, mapFind, mapInsert, hbc, hcb, hac, hca]
  have r4 : step L sgn { consts := [(a, L.toDouble p), (b, L.toDouble q), (c, L.toDouble r)] } (.named d t) =
      some { consts := [(d, L.toDouble t), (a, L.toDouble p), (b, L.toDouble q), (c, L.toDouble r)] } := by
    simp [step, cd, ht, mapFind, mapInsert, hda, had, hdb, hbd, hdc, hcd]
  rw [rows, r1]
  simp only []
  rw [rows, r2]
  simp only []
  rw [rows, r3]
  simp only []
  rw [rows, r4]

/-- C115: the table becomes the events of C114, whatever the four numbers and whatever increasing dates the schedule gives between the start and the maturity; the numbers are constants under
their names. -/
theorem C115_snowball {E : Type} (L : Lib E) (hL : L.subst = Script.Macro.subst) (hd : ∀ n, L.dateText n = DateText.toString' ⟨n⟩) (sgn : Bool) (ki ko strike coupon sched : Str)
    (hnum : ∀ t ∈ [ki, ko, strike, coupon], L.isNumber t = true) {start maturity : Date.Date} (hs : start.Valid) (hc : ':' ∈ sched) (first : Nat) (dates : List Date.Date)
    (hsched : L.sched sched = some (Script.Sched.periods true (first :: dates.map (·.serial)))) (hord : (start :: (dates ++ [maturity])).Pairwise fun a b => a.serial < b.serial) :
    ∃ s, rows L sgn (snowTable ki ko strike coupon sched start maturity) {} = some s ∧ s.macros = [] ∧
      s.events = (start.serial, snowFirst) :: (dates.map (fun d => (d.serial, snowWatch start d)) ++ [(maturity.serial, snowLast start maturity)]) ∧
      mapFind sgn lowName s.consts = some (L.toDouble ki) ∧ mapFind sgn highName s.consts = some (L.toDouble ko) ∧
      mapFind sgn strikeName s.consts = some (L.toDouble strike) ∧ mapFind sgn couponName s.consts = some (L.toDouble coupon) ∧
      mapFind sgn aliveName s.consts = none ∧ mapFind sgn kiName s.consts = none ∧ mapFind sgn callName s.consts = none := by
  obtain ⟨h1, h2⟩ := List.pairwise_cons.1 hord
  obtain ⟨h3, -, h4⟩ := List.pairwise_append.1 h2
  have hrows := four_numbers L sgn (a := lowName) (b := highName) (c := strikeName) (d := couponName) (p := ki) (q := ko) (r := strike) (t := coupon) (hnum _ (by simp)) (hnum _ (by simp))
    (hnum _ (by simp)) (hnum _ (by simp)) (by decide) (by decide) (by decide) (by decide) (by cases sgn <;> decide) (by cases sgn <;> decide) (by cases sgn <;> decide) (by cases sgn <;> decide)
    (by cases sgn <;> decide) (by cases sgn <;> decide) (by cases sgn <;> decide) (by cases sgn <;> decide) (by cases sgn <;> decide) (by cases sgn <;> decide) (by cases sgn <;> decide)
    (by cases sgn <;> decide)
  have hev := table_add_all (fun s e => period L (snowOpen start) s e) (fun e => snowWatch start ⟨e⟩) (fun s e => C115_snowball_period L hL hd hs s ⟨e⟩) (dates.map (·.serial)) first
    [(start.serial, snowFirst)] (by rw [List.pairwise_map]; exact h3) (by
      intro x hx d hdd
      rw [List.mem_singleton.1 hx]
      obtain ⟨e, he, rfl⟩ := List.mem_map.1 hdd
      exact h1 e (by simp [he]))
  have hall : rows L sgn (snowTable ki ko strike coupon sched start maturity) {} = some ⟨[], [(couponName, L.toDouble coupon), (lowName, L.toDouble ki), (highName, L.toDouble ko), (strikeName, L.toDouble strike)],
      (start.serial, snowFirst) :: (dates.map (fun d => (d.serial, snowWatch start d)) ++ [(maturity.serial, snowLast start maturity)])⟩ := by
    rw [snowTable, hrows, rows]
    simp only [step, replaceAll, List.foldl_nil, addEvent]
    rw [rows]
    simp only [step, if_pos hc, hsched, replaceAll, List.foldl_nil]
    rw [hev, rows]
    simp only [step, replaceAll, List.foldl_nil]
    rw [table_add_last, rows]
    · simp
    · intro x hx
      simp only [List.mem_append, List.mem_singleton, List.mem_map] at hx
      rcases hx with rfl | ⟨d, ⟨e, he, rfl⟩, rfl⟩
      · exact h1 maturity (by simp)
      · exact h4 e he maturity (by simp)
  refine ⟨_, hall, rfl, rfl, ?_⟩
  generalize L.toDouble ki = v1
  generalize L.toDouble ko = v2
  generalize L.toDouble strike = v3
  generalize L.toDouble coupon = v4
  refine ⟨?_, ?_, ?_, ?_, ?_, ?_, ?_⟩ <;> cases sgn <;> rfl

/-- The events of the rows are the program of the texts. -/
theorem snow_rows_prog (L : Lib (Script.PStmts ℝ)) (hL : L.subst = Script.Macro.subst) (hd : ∀ n, L.dateText n = DateText.toString' ⟨n⟩) (sgn : Bool) (base : Script.PEnv ℝ)
    (hparse : ∀ consts t e, (∃ N, ∀ m, N ≤ m → Script.pEvent (withConstants base sgn consts) m (Script.tokens t) = .ok e) → L.parse consts t = some [e])
    (h0 : base.toD (.num ['0']) = some 0) (h1 : base.toD (.num ['1']) = some 1) (h1' : base.toD (.num "1.000000".toList) = some 1) (hw : base.toD (.num "0.001".toList) = some 0.001)
    (hdcf : ∃ sgn depth, base.dcf = Dcf.parse fun n s t => (Dcf.fraction sgn depth n s t).map (Option.map fun r : Rat => (r : ℝ)))
    (ki ko strike coupon sched : Str) (hnum : ∀ t ∈ [ki, ko, strike, coupon], L.isNumber t = true) {start maturity : Date.Date} (hs : Dcf.Readable start) (hm : Dcf.Readable maturity)
    (hc : ':' ∈ sched) (first : Nat) (dates : List Date.Date) (hdd : ∀ d ∈ dates, Dcf.Readable d)
    (hsched : L.sched sched = some (Script.Sched.periods true (first :: dates.map (·.serial)))) (hord : (start :: (dates ++ [maturity])).Pairwise fun a b => a.serial < b.serial)
    (evalDate : Nat) (he : evalDate ≤ start.serial) :
    ∃ consts p, (rows L sgn (snowTable ki ko strike coupon sched start maturity) {}).map (·.consts) = some consts ∧
      SnowEnv (withConstants base sgn consts) (L.toDouble ki) (L.toDouble ko) (L.toDouble coupon) (L.toDouble strike) 0.001 ∧
      parseEvents L sgn evalDate (snowTable ki ko strike coupon sched start maturity) = some p ∧ p.past = [] ∧ p.future.map Prod.fst = (start :: (dates ++ [maturity])).map (·.serial) ∧
      p.future.flatMap Prod.snd = snowProg (L.toDouble ki) (L.toDouble ko) (L.toDouble coupon) (L.toDouble strike) 0.001 base.zero (dates.map (yearsBetween start)) (yearsBetween start maturity) := by
  obtain ⟨s, hr, -, hev, c1, c2, c3, c4, c5, c6, c7⟩ := C115_snowball L hL hd sgn ki ko strike coupon sched hnum hs.1 hc first dates hsched hord
  have hv : SnowEnv (withConstants base sgn s.consts) (L.toDouble ki) (L.toDouble ko) (L.toDouble coupon) (L.toDouble strike) 0.001 := by
    refine ⟨?_, ?_, ?_, ?_, ?_, ?_, ?_, h0, h1, h1', hw, hdcf⟩ <;> simp [withConstants, *]
  have hpar : List.Forall₂ (fun x e => L.parse s.consts x.2 = some e) s.events
      ([snowStart aliveName kiName] :: (dates.map (fun d => [snowLook aliveName kiName callName lowName highName couponName (L.toDouble ki : ℝ) (L.toDouble ko) (L.toDouble coupon) 0.001
        base.zero (yearsBetween start d) [] []]) ++ [[snowEnd aliveName kiName callName lowName highName couponName strikeName (L.toDouble ki : ℝ) (L.toDouble ko) (L.toDouble coupon)
        (L.toDouble strike) 0.001 base.zero (yearsBetween start maturity) [] []]])) := by
    rw [hev]
    refine List.Forall₂.cons (hparse _ _ _ (snow_start_parsed hv)) (List.rel_append ?_ (List.Forall₂.cons (hparse _ _ _ (snow_last_parsed hv hs hm)) List.Forall₂.nil))
    rw [List.forall₂_map_left_iff, List.forall₂_map_right_iff, List.forall₂_same]
    exact fun d hdm => hparse _ _ _ (snow_watch_parsed hv hs (hdd d hdm))
  obtain ⟨o1, o2⟩ := List.pairwise_cons.1 hord
  have hfut := table_distribute_future L s.consts evalDate s.events _ {} hpar (by
    rw [hev]
    intro x hx
    simp only [List.mem_cons, List.mem_append, List.mem_map, List.not_mem_nil, or_false] at hx
    rcases hx with rfl | ⟨d, hdm, rfl⟩ | rfl
    · exact he
    · exact le_of_lt (lt_of_le_of_lt he (o1 d (by simp [hdm])))
    · exact le_of_lt (lt_of_le_of_lt he (o1 maturity (by simp))))
  have hlen := List.Forall₂.length_eq hpar
  refine ⟨s.consts, _, by rw [hr]; rfl, hv, by rw [parseEvents, hr]; exact hfut, rfl, ?_, ?_⟩
  · simp only [List.nil_append]
    rw [List.map_fst_zip (by rw [List.length_map]; exact hlen.le), hev]
    simp
  · simp only [List.nil_append]
    rw [table_flat_zip _ _ (by rw [List.length_map]; exact hlen), snowProg]
    rw [List.flatten_cons, List.flatten_append, table_flat_single, List.map_map]
    rfl

/-- C115: from the table of the example to its value.  The events are read by the parser of C27 with the numbers of the table as constants; nothing is in the past; and on every path the product
is worth what the note is worth. -/
theorem C115_snowball_value (L : Lib (Script.PStmts ℝ)) (hL : L.subst = Script.Macro.subst) (hd : ∀ n, L.dateText n = DateText.toString' ⟨n⟩) (sgn : Bool) (base : Script.PEnv ℝ)
    (hparse : ∀ consts t e, (∃ N, ∀ m, N ≤ m → Script.pEvent (withConstants base sgn consts) m (Script.tokens t) = .ok e) → L.parse consts t = some [e])
    (h0 : base.toD (.num ['0']) = some 0) (h1 : base.toD (.num ['1']) = some 1) (h1' : base.toD (.num "1.000000".toList) = some 1) (hw : base.toD (.num "0.001".toList) = some 0.001)
    (hdcf : ∃ sgn depth, base.dcf = Dcf.parse fun n s t => (Dcf.fraction sgn depth n s t).map (Option.map fun r : Rat => (r : ℝ)))
    (ki ko strike coupon sched : Str) (hnum : ∀ t ∈ [ki, ko, strike, coupon], L.isNumber t = true) {start maturity : Date.Date} (hs : Dcf.Readable start) (hm : Dcf.Readable maturity)
    (hc : ':' ∈ sched) (first : Nat) (dates : List Date.Date) (hdd : ∀ d ∈ dates, Dcf.Readable d)
    (hsched : L.sched sched = some (Script.Sched.periods true (first :: dates.map (·.serial)))) (hord : (start :: (dates ++ [maturity])).Pairwise fun a b => a.serial < b.serial)
    (evalDate : Nat) (he : evalDate ≤ start.serial) :
    ∃ consts p, (rows L sgn (snowTable ki ko strike coupon sched start maturity) {}).map (·.consts) = some consts ∧
      parseEvents L sgn evalDate (snowTable ki ko strike coupon sched start maturity) = some p ∧ p.past = [] ∧ p.future.map Prod.fst = (start :: (dates ++ [maturity])).map (·.serial) ∧
      ∀ (cval : List Char → ℝ), (∀ n (r : Rat), mapFind sgn n consts = some r → cval n = r) →
      ∀ fuzzy, ∃ q, prepare fuzzy callName cval (p.future.flatMap Prod.snd) = some q ∧
        ∀ (s0 sT : Script.Sample ℝ) (ws : List (Script.Sample ℝ)), ws.length = dates.length → (∀ s ∈ s0 :: (ws ++ [sT]), 0 < s.numeraire) →
          exactOn q (s0 :: (ws ++ [sT])) =
            Snowball.worth ⟨L.toDouble ki, L.toDouble ko, L.toDouble coupon, L.toDouble strike⟩ (looks start dates ws) ⟨sT.spot, sT.numeraire, yearsBetween start maturity⟩ := by
  obtain ⟨consts, p, g1, hv, g2, g3, g4, g5⟩ := snow_rows_prog L hL hd sgn base hparse h0 h1 h1' hw hdcf ki ko strike coupon sched hnum hs hm hc first dates hdd hsched hord evalDate he
  refine ⟨consts, p, g1, g2, g3, g4, fun cval hcv fuzzy => ?_⟩
  obtain ⟨q, hq, -⟩ := C114_made hv hs hdd hm (cval := cval) fuzzy
  refine ⟨q, ?_, fun s0 sT ws hws hpos => C114_exact hv hs hdd hm ?_ hq s0 ws hws sT hpos⟩
  · rw [g5]
    exact snow_progs hv hs hdd hm hq
  · intro n c h
    simp only [withConstants, Option.map_eq_some_iff] at h
    obtain ⟨r, h1, rfl⟩ := h
    exact hcv n r h1

open Classical in
/-- A library for the example: everything is a number, worth one. -/
noncomputable def Snowball.demoLib : Lib (Script.PStmts ℝ) where
  subst := Script.Macro.subst
  isNumber _ := true
  toDouble _ := 1
  sched _ := some (Script.Sched.periods true [(Date.mk' 2023 5 15).serial, (Date.mk' 2023 6 1).serial])
  dateText n := DateText.toString' ⟨n⟩
  parse consts t := if h : ∃ e, ∃ N, ∀ m, N ≤ m → Script.pEvent (withConstants Snowball.demoEnv true consts) m (Script.tokens t) = .ok e then some [h.choose] else none

/-- The hypotheses can be met: one date in the schedule. -/
example : ∃ consts p, (rows Snowball.demoLib true (snowTable [] [] [] [] ":".toList (Date.mk' 2023 5 1) (Date.mk' 2025 3 1)) {}).map (·.consts) = some consts ∧
    parseEvents Snowball.demoLib true 0 (snowTable [] [] [] [] ":".toList (Date.mk' 2023 5 1) (Date.mk' 2025 3 1)) = some p ∧ p.future.length = 3 := by
  have hv := Snowball.demo_env
  obtain ⟨consts, p, h1, h2, -, h3, -⟩ := C115_snowball_value Snowball.demoLib rfl (fun _ => rfl) true Snowball.demoEnv (by
      intro consts t e h
      have hx : ∃ e, ∃ N, ∀ m, N ≤ m → Script.pEvent (withConstants Snowball.demoEnv true consts) m (Script.tokens t) = .ok e := ⟨e, h⟩
      rw [Snowball.demoLib]
      simp only
      rw [dif_pos hx]
      obtain ⟨N, hN⟩ := h
      obtain ⟨N', hN'⟩ := hx.choose_spec
      have := (hN (max N N') (le_max_left _ _)).symm.trans (hN' (max N N') (le_max_right _ _))
      injection this with this
      rw [← this]) hv.zero hv.one hv.onePoint hv.width ⟨true, 0, rfl⟩ [] [] [] [] ":".toList (fun _ _ => rfl) (start := Date.mk' 2023 5 1) (maturity := Date.mk' 2025 3 1)
    (Snowball.demo_dates _ (by simp)) (Snowball.demo_dates _ (by simp)) (by decide) (Date.mk' 2023 5 15).serial [Date.mk' 2023 6 1] (by
      intro d hd
      exact Snowball.demo_dates d (by simp at hd; simp [hd])) rfl (by decide +kernel) 0 (Nat.zero_le _)
  refine ⟨consts, p, h1, h2, ?_⟩
  have := congrArg List.length h3
  simpa using this

end Dal
