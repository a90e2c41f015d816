import Verif.Time.BuiltInModel
import Verif.Time.HolidayTextLemmas

/-!
# C74: the built-in calendars and the facts about currencies

Specification: the tables as sets of dates, the history of what was set and written.
-/

namespace Dal
open Dal.Strings Dal.Date Dal.HolText Dal.Hol Dal.BuiltIn

/-! ### The tables -/

/-- C74: every entry of the tables is a date of the calendar as written; holidays are never weekends, working weekends always are, both
in order without repetition. -/
theorem C74_tables :
    (∀ t ∈ sseTable ++ wwTable, (year (mk' t.1 t.2.1 t.2.2), month (mk' t.1 t.2.1 t.2.2), day (mk' t.1 t.2.1 t.2.2)) = t) ∧
    (∀ d ∈ sseHols ++ ibHols, (d + 3) % 7 ≠ 0 ∧ (d + 3) % 7 ≠ 6) ∧ (∀ d ∈ ibWws, (d + 3) % 7 = 0 ∨ (d + 3) % 7 = 6) ∧
    sseHols.Pairwise (· < ·) ∧ ibHols.Pairwise (· < ·) ∧ ibWws.Pairwise (· < ·) := by
  refine ⟨by decide +kernel, by decide +kernel, by decide +kernel, ?_, ?_, ?_⟩
  · exact (isMonotonic_iff _).1 (by decide +kernel)
  · exact (isMonotonic_iff _).1 (by decide +kernel)
  · exact (isMonotonic_iff _).1 (by decide +kernel)

private theorem sse_good : Good sseHols [] := (acceptable_iff _ _).1 (by decide +kernel)
private theorem ib_good : Good ibHols ibWws := (acceptable_iff _ _).1 (by decide +kernel)

/-- The centre of the exchange. -/
def sseCenter : TCenter := ⟨"CN.SSE".toList, sseHols, []⟩
/-- The centre of the interbank market. -/
def ibCenter : TCenter := ⟨"CN.IB".toList, ibHols, ibWws⟩

attribute [local irreducible] sseHols ibHols ibWws sseTable wwTable mk' weekEnd

private theorem bus_one (c : TCenter) (g : Good c.holidays c.workWeekends) (d : Nat) :
    isBus [c.toHol] d = true ↔ d ∈ c.workWeekends ∨ (weekEnd d = false ∧ d ∉ c.holidays) := by
  have hg : GoodHols [c.toHol] := by
    intro p hp
    rw [List.mem_singleton.1 hp]
    exact g
  unfold isBus
  rw [Bool.or_eq_true, Bool.and_eq_true, Bool.not_eq_true', Bool.not_eq_true', isWorkWeekends_iff hg, ← Bool.not_eq_true, ← Bool.not_eq_true, isHoliday_iff hg]
  simp [TCenter.toHol]

private theorem mem_ibHols (d : Nat) : d ∈ ibHols ↔ d ∈ sseHols ∧ d ≠ (mk' 2024 2 9).serial := by
  unfold ibHols
  rw [List.mem_filter, mem_unique, bne_iff_ne]

/-- C74: the interbank market works whenever the exchange does, and besides only on its working weekends and on 9 February 2024. -/
theorem C74_business_days (d : Nat) : isBus [ibCenter.toHol] d = true ↔
    isBus [sseCenter.toHol] d = true ∨ d ∈ ibWws ∨ d = (mk' 2024 2 9).serial := by
  rw [bus_one _ ib_good, bus_one _ sse_good]
  show d ∈ ibWws ∨ (weekEnd d = false ∧ d ∉ ibHols) ↔ (d ∈ [] ∨ (weekEnd d = false ∧ d ∉ sseHols)) ∨ d ∈ ibWws ∨ d = (mk' 2024 2 9).serial
  rw [mem_ibHols]
  constructor
  · rintro (h | ⟨h1, h2⟩)
    · exact Or.inr (Or.inl h)
    · by_cases hd : d = (mk' 2024 2 9).serial
      · exact Or.inr (Or.inr hd)
      · exact Or.inl (Or.inr ⟨h1, fun h => h2 ⟨h, hd⟩⟩)
  · rintro ((h | ⟨h1, h2⟩) | h | h)
    · cases h
    · exact Or.inr ⟨h1, fun h => h2 h.1⟩
    · exact Or.inl h
    · subst h
      refine Or.inr ⟨?_, fun h => h.2 rfl⟩
      decide +kernel

/-- C74: the tables end with 2025: from 12 October 2025 on every weekday is taken for a business day, and no weekend is. -/
theorem C74_after_the_tables (d : Nat) (h : (mk' 2025 10 11).serial < d) :
    (isBus [ibCenter.toHol] d = true ↔ weekEnd d = false) ∧ (isBus [sseCenter.toHol] d = true ↔ weekEnd d = false) := by
  have h1 : ∀ x ∈ sseHols, x ≤ (mk' 2025 10 11).serial := by decide +kernel
  have h2 : ∀ x ∈ ibWws, x ≤ (mk' 2025 10 11).serial := by decide +kernel
  rw [bus_one _ ib_good, bus_one _ sse_good]
  show (d ∈ ibWws ∨ (weekEnd d = false ∧ d ∉ ibHols) ↔ _) ∧ (d ∈ [] ∨ (weekEnd d = false ∧ d ∉ sseHols) ↔ _)
  have n1 : d ∉ sseHols := fun m => absurd (h1 d m) (by omega)
  have n2 : d ∉ ibWws := fun m => absurd (h2 d m) (by omega)
  have n3 : d ∉ ibHols := fun m => n1 ((mem_ibHols d).1 m).1
  simp [n1, n2, n3]

example : (mk' 2025 10 11).serial < (mk' 2026 2 17).serial := by decide +kernel

/-! ### Initialisation -/

private theorem any_of_named {sgn : Bool} {reg : List TCenter} {w : Str} (h : ∃ c ∈ reg, eqS sgn c.name w = true) :
    (reg.any fun c => eqS sgn c.name w) = true := by
  obtain ⟨c, hc, he⟩ := h
  exact List.any_eq_true.2 ⟨c, hc, he⟩

private theorem any_of_free {sgn : Bool} {reg : List TCenter} {w : Str} (h : ∀ c ∈ reg, eqS sgn c.name w = false) :
    (reg.any fun c => eqS sgn c.name w) = false := by
  rw [List.any_eq_false]
  intro c hc
  rw [h c hc]
  exact Bool.false_ne_true

private theorem sse_ib_differ (sgn : Bool) : eqS sgn "CN.SSE".toList "CN.IB".toList = false := by
  cases sgn <;> decide +kernel

private theorem sse_same (sgn : Bool) : eqS sgn "CN.SSE".toList "CN.SSE".toList = true := by
  cases sgn <;> decide +kernel

private theorem ib_same (sgn : Bool) : eqS sgn "CN.IB".toList "CN.IB".toList = true := by
  cases sgn <;> decide +kernel

private theorem add_free {sgn : Bool} {g : Global} {w : Str} {hols wws : List Nat} (a : Hol.acceptable hols wws = true)
    (h : ∀ c ∈ g.st.reg, eqS sgn c.name w = false) :
    addTo sgn g w hols wws = ({ g with st := { g.st with reg := g.st.reg ++ [⟨w, hols, wws⟩] } }, true) := by
  unfold addTo HolText.addCenter
  rw [a, any_of_free h]
  rfl

private theorem add_taken {sgn : Bool} {g : Global} {w : Str} {hols wws : List Nat}
    (h : ∃ c ∈ g.st.reg, eqS sgn c.name w = true) : addTo sgn g w hols wws = (g, false) := by
  unfold addTo HolText.addCenter
  rw [any_of_named h, Bool.not_true, Bool.and_false]
  rfl

/-- C74: in a process where neither name is taken, initialising registers exactly the two centres, keeping the others; doing it again
changes nothing. -/
theorem C74_init (sgn : Bool) (g : Global) (h0 : g.calInit = false) (h1 : ∀ c ∈ g.st.reg, eqS sgn c.name "CN.SSE".toList = false)
    (h2 : ∀ c ∈ g.st.reg, eqS sgn c.name "CN.IB".toList = false) :
    ∃ g', calendarsInit sgn g = (g', true) ∧ g'.st.reg = g.st.reg ++ [sseCenter, ibCenter] ∧ g'.calInit = true ∧
      g'.st.combos = g.st.combos ∧ calendarsInit sgn g' = (g', true) := by
  have e1 := add_free (sgn := sgn) (g := g) (w := "CN.SSE".toList) ((acceptable_iff _ _).2 sse_good) h1
  have h3 : ∀ c ∈ g.st.reg ++ [sseCenter], eqS sgn c.name "CN.IB".toList = false := by
    intro c hc
    rcases List.mem_append.1 hc with h | h
    · exact h2 c h
    · rw [List.mem_singleton.1 h]
      exact sse_ib_differ sgn
  have e2 := add_free (sgn := sgn) (g := { g with st := { g.st with reg := g.st.reg ++ [sseCenter] } }) (w := "CN.IB".toList)
    ((acceptable_iff _ _).2 ib_good) h3
  have e : calendarsInit sgn g = ({ g with st := { g.st with reg := g.st.reg ++ [sseCenter] ++ [ibCenter] }, calInit := true }, true) := by
    unfold calendarsInit
    rw [h0, if_neg Bool.false_ne_true, e1]
    show (match addTo sgn { g with st := { g.st with reg := g.st.reg ++ [sseCenter] } } "CN.IB".toList ibHols ibWws with
      | (g, false) => (g, false)
      | (g, true) => ({ g with calInit := true }, true)) = _
    rw [e2, ← h0]
    rfl
  refine ⟨_, e, ?_, rfl, rfl, ?_⟩
  · show g.st.reg ++ [sseCenter] ++ [ibCenter] = _
    rw [List.append_assoc]
    rfl
  · unfold calendarsInit
    rfl

/-- `n` further attempts. -/
def retryCalendars (sgn : Bool) : Nat → Global → Global × Bool
  | 0, g => calendarsInit sgn g
  | n + 1, g => retryCalendars sgn n (calendarsInit sgn g).1

/-- C74, not so: if the second name is taken, initialising fails half-way: the first centre stays registered, so every further attempt
fails too, even `RegisterAll_`, which then never sets the facts about currencies. -/
theorem C74_half_initialised_violated {sgn : Bool} (s : Sorter sgn) (g : Global) (h0 : g.calInit = false) (ha : g.allInit = false)
    (h1 : ∀ c ∈ g.st.reg, eqS sgn c.name "CN.SSE".toList = false) (h2 : ∃ c ∈ g.st.reg, eqS sgn c.name "CN.IB".toList = true) :
    ∃ g', (∀ n, retryCalendars sgn n g = (g', false)) ∧ sseCenter ∈ g'.st.reg ∧ ibCenter ∉ g'.st.reg.drop g.st.reg.length ∧
      registerAll s g' = (g', false) := by
  have e1 := add_free (sgn := sgn) (g := g) (w := "CN.SSE".toList) ((acceptable_iff _ _).2 sse_good) h1
  obtain ⟨g', hg⟩ : ∃ g' : Global, g' = { g with st := { g.st with reg := g.st.reg ++ [sseCenter] } } := ⟨_, rfl⟩
  have e1' : addTo sgn g "CN.SSE".toList sseHols [] = (g', true) := by rw [e1, hg]; rfl
  have e2 : addTo sgn g' "CN.IB".toList ibHols ibWws = (g', false) := by
    apply add_taken
    rw [hg]
    obtain ⟨c, hc, he⟩ := h2
    exact ⟨c, List.mem_append_left _ hc, he⟩
  have c0 : g'.calInit = false := by rw [hg]; exact h0
  have a0 : g'.allInit = false := by rw [hg]; exact ha
  have e3 : calendarsInit sgn g = (g', false) := by
    unfold calendarsInit
    rw [h0, if_neg Bool.false_ne_true, e1']
    dsimp only
    rw [e2]
  have e4 : calendarsInit sgn g' = (g', false) := by
    unfold calendarsInit
    rw [c0, if_neg Bool.false_ne_true, add_taken ⟨sseCenter, by rw [hg]; simp, sse_same sgn⟩]
  have e5 : ∀ n, retryCalendars sgn n g' = (g', false) := by
    intro n
    induction n with
    | zero => exact e4
    | succ n ih => rw [retryCalendars, e4]; exact ih
  refine ⟨g', ?_, by rw [hg]; simp, ?_, ?_⟩
  · intro n
    cases n with
    | zero => exact e3
    | succ n => rw [retryCalendars, e3]; exact e5 n
  · rw [hg]
    simp only [List.drop_left, List.mem_singleton]
    intro h
    exact absurd (congrArg TCenter.name h) (by decide +kernel)
  · unfold registerAll
    rw [a0, if_neg Bool.false_ne_true, e4]

example : ∃ g : Global, g.calInit = false ∧ g.allInit = false ∧ (∀ c ∈ g.st.reg, eqS true c.name "CN.SSE".toList = false) ∧
    ∃ c ∈ g.st.reg, eqS true c.name "CN.IB".toList = true :=
  ⟨{ st := ⟨[⟨"cn.ib".toList, [], []⟩], [], []⟩ }, rfl, rfl, by decide +kernel, by decide +kernel⟩

/-! ### Facts -/

/-- What can be done to a fact. -/
inductive FactOp (κ α : Type) where
  | deflt (v : α)
  | put (k : κ) (v : α)

/-- Doing it. -/
def FactOp.run {κ α : Type} [DecidableEq κ] (f : Fact κ α) : FactOp κ α → Fact κ α
  | .deflt v => f.setDefault v
  | .put k v => f.write k v

/-- Specification: the last value written for a key. -/
def lastPut {κ α : Type} [DecidableEq κ] (k : κ) : List (FactOp κ α) → Option α
  | [] => none
  | op :: r => (lastPut k r).or (match op with | .put k' v => if k' = k then some v else none | .deflt _ => none)

/-- Specification: the last default. -/
def lastDefault {κ α : Type} : List (FactOp κ α) → Option α
  | [] => none
  | op :: r => (lastDefault r).or (match op with | .put _ _ => none | .deflt v => some v)

private theorem find_assign {κ α : Type} [DecidableEq κ] (k k' : κ) (v : α) (m : List (κ × α)) :
    ((assign k v m).find? fun e => e.1 = k') = if k = k' then some (k, v) else m.find? fun e => e.1 = k' := by
  induction m with
  | nil => by_cases h : k = k' <;> simp [assign, h]
  | cons e m ih =>
    rw [assign]
    by_cases he : e.1 = k
    · rw [if_pos he]
      by_cases h : k = k'
      · simp [h]
      · rw [if_neg h, List.find?_cons_of_neg (by simpa using h), List.find?_cons_of_neg (by rw [he]; simpa using h)]
    · rw [if_neg he]
      by_cases h : k = k'
      · subst h
        rw [if_pos rfl, List.find?_cons_of_neg (by simpa using he), ih, if_pos rfl]
      · rw [if_neg h] at ih ⊢
        by_cases hk : e.1 = k'
        · rw [List.find?_cons_of_pos (by simpa using hk), List.find?_cons_of_pos (by simpa using hk)]
        · rw [List.find?_cons_of_neg (by simpa using hk), List.find?_cons_of_neg (by simpa using hk), ih]

/-- C74: after any history, a fact about a currency is the value last written for it, else the last default, else an exception. -/
theorem C74_fact_history {κ α : Type} [DecidableEq κ] (ops : List (FactOp κ α)) (k : κ) :
    (ops.foldl FactOp.run {}).get k = (lastPut k ops).or (lastDefault ops) := by
  have key : ∀ (f : Fact κ α), (ops.foldl FactOp.run f).get k =
      ((lastPut k ops).or ((f.specific.find? fun e => e.1 = k).map Prod.snd)).or ((lastDefault ops).or f.background) := by
    induction ops with
    | nil =>
      intro f
      simp only [List.foldl_nil, Fact.get, lastPut, lastDefault, Option.none_or]
      cases f.specific.find? fun e => e.1 = k <;> rfl
    | cons op ops ih =>
      intro f
      rw [List.foldl_cons, ih]
      cases op with
      | deflt v =>
        simp only [FactOp.run, Fact.setDefault, lastPut, lastDefault, Option.or_none]
        cases lastDefault ops <;> cases lastPut k ops <;> cases f.specific.find? fun e => e.1 = k <;> rfl
      | put k' v =>
        simp only [FactOp.run, Fact.write, lastPut, lastDefault, Option.or_none, find_assign]
        by_cases h : k' = k
        · simp only [if_pos h]
          cases lastPut k ops <;> rfl
        · simp only [if_neg h]
          cases lastPut k ops <;> rfl
  have := key {}
  simpa using this

example : ((([.deflt 2, .put 5 1, .put 5 0, .deflt 3] : List (FactOp Nat Nat)).foldl FactOp.run {}).get 5,
    (([.deflt 2, .put 5 1, .put 5 0, .deflt 3] : List (FactOp Nat Nat)).foldl FactOp.run {}).get 6) = (some 0, some 3) := by decide

private theorem fromText_ib {sgn : Bool} (s : Sorter sgn) (st : St) (hf : HolText.ofCenter sgn st.reg "CN.IB".toList = some ibCenter) :
    fromText s st "CN.IB".toList = some [ibCenter] := by
  unfold fromText uniqueNames
  have h1 : split ' ' false "CN.IB".toList = ["CN.IB".toList] := by decide +kernel
  have h2 : s.run ["CN.IB".toList] = ["CN.IB".toList] := List.perm_singleton.1 (s.perm _)
  have h3 : dedup sgn ["CN.IB".toList] = ["CN.IB".toList] := by rw [dedup]
  rw [h1, h2, h3, List.mapM_cons, hf]
  rfl

private theorem ofCenter_ib {sgn : Bool} (reg : List TCenter) (h2 : ∀ c ∈ reg, eqS sgn c.name "CN.IB".toList = false) :
    HolText.ofCenter sgn (reg ++ [sseCenter, ibCenter]) "CN.IB".toList = some ibCenter := by
  unfold HolText.ofCenter
  rw [List.find?_append, List.find?_eq_none.2 (fun c hc => by rw [h2 c hc]; exact Bool.false_ne_true), Option.none_or,
    List.find?_cons_of_neg (by show ¬ eqS sgn "CN.SSE".toList _ = true; rw [sse_ib_differ]; exact Bool.false_ne_true),
    List.find?_cons_of_pos (by exact ib_same sgn)]

/-- C74: starting the library registers both centres and gives the yuan one fixing day and the interbank calendar; every other currency has two
fixing days; starting it again changes nothing. -/
theorem C74_register_all {sgn : Bool} (s : Sorter sgn) : ∃ g, registerAll s {} = (g, true) ∧ g.st.reg = [sseCenter, ibCenter] ∧
    g.fixDays.get "CNY".toList = some 1 ∧ (∀ ccy, ccy ≠ "CNY".toList → g.fixDays.get ccy = some 2) ∧
    g.fixHols.get "CNY".toList = some [ibCenter] ∧ (∀ ccy, ccy ≠ "CNY".toList → g.fixHols.get ccy = none) ∧
    registerAll s g = (g, true) := by
  obtain ⟨g1, e1, r1, c1, -, -⟩ := C74_init sgn {} rfl (fun c hc => by cases hc) (fun c hc => by cases hc)
  have hd : g1 = { st := ⟨[sseCenter, ibCenter], g1.st.combos, g1.st.objs⟩, calInit := true, ccyInit := false, parserInit := false, allInit := false, fixDays := {}, fixHols := {} } := by
    have e1' : calendarsInit sgn {} = ({ st := ⟨[sseCenter, ibCenter], [], []⟩, calInit := true }, true) := by
      have a1 := add_free (sgn := sgn) (g := {}) (w := "CN.SSE".toList) ((acceptable_iff _ _).2 sse_good) (fun c hc => by cases hc)
      have a2 := add_free (sgn := sgn) (g := { st := ⟨[sseCenter], [], []⟩ }) (w := "CN.IB".toList) ((acceptable_iff _ _).2 ib_good)
        (fun c hc => by rw [List.mem_singleton.1 hc]; exact sse_ib_differ sgn)
      unfold calendarsInit
      rw [if_neg Bool.false_ne_true, a1]
      show (match addTo sgn { st := ⟨[sseCenter], [], []⟩ } "CN.IB".toList ibHols ibWws with
        | (g, false) => (g, false)
        | (g, true) => ({ g with calInit := true }, true)) = _
      rw [a2]
      rfl
    rw [e1] at e1'
    have := (Prod.mk.inj e1').1
    rw [this]
  have hf : fromText s g1.st "CN.IB".toList = some [ibCenter] := by
    apply fromText_ib
    rw [r1]
    exact ofCenter_ib [] (fun c hc => by cases hc)
  have e2 : ccyInit s g1 = ({ g1 with fixDays := (Fact.setDefault {} 2).write "CNY".toList 1, fixHols := Fact.write {} "CNY".toList [ibCenter], ccyInit := true }, true) := by
    unfold ccyInit
    rw [hd] at hf ⊢
    rw [if_neg Bool.false_ne_true]
    dsimp only at hf ⊢
    rw [hf]
  obtain ⟨g2, hg2⟩ : ∃ g2 : Global, g2 = { g1 with fixDays := (Fact.setDefault {} 2).write "CNY".toList 1, fixHols := Fact.write {} "CNY".toList [ibCenter], ccyInit := true, parserInit := true, allInit := true } := ⟨_, rfl⟩
  have e3 : registerAll s {} = (g2, true) := by
    unfold registerAll
    rw [if_neg Bool.false_ne_true, e1]
    dsimp only
    rw [e2, hg2]
  have get1 : ∀ {α : Type} (d : Option α) (v : α) (ccy : Str), ((⟨d, []⟩ : Fact Str α).write "CNY".toList v).get ccy = if "CNY".toList = ccy then some v else d := by
    intro α d v ccy
    unfold Fact.get Fact.write
    dsimp only
    rw [find_assign]
    by_cases h : "CNY".toList = ccy
    · rw [if_pos h, if_pos h]
    · rw [if_neg h, if_neg h]
      rfl
  refine ⟨g2, e3, by rw [hg2]; exact r1, ?_, ?_, ?_, ?_, ?_⟩
  · rw [hg2]; exact (get1 (some 2) 1 _).trans (if_pos rfl)
  · intro ccy h; rw [hg2]; exact (get1 (some 2) 1 ccy).trans (if_neg (Ne.symm h))
  · rw [hg2]; exact (get1 none [ibCenter] _).trans (if_pos rfl)
  · intro ccy h; rw [hg2]; exact (get1 none [ibCenter] ccy).trans (if_neg (Ne.symm h))
  · have : g2.allInit = true := by rw [hg2]
    unfold registerAll
    rw [this]
    rfl

/-- C74, not so: that every currency with fixing days has a fixing calendar: once the library is started, the start of a rate can be found for
the yuan, one business day of the interbank market after the fixing, but is an exception for every other currency. -/
theorem C74_other_currencies_violated {sgn : Bool} (s : Sorter sgn) (fix : Nat) :
    liborStart (registerAll s {}).1 "CNY".toList fix = some (startFromFix [ibCenter.toHol] 1 fix) ∧
    ∀ ccy, ccy ≠ "CNY".toList → liborStart (registerAll s {}).1 ccy fix = none ∧ (registerAll s {}).1.fixDays.get ccy ≠ none := by
  obtain ⟨g, e, _, h1, h2, h3, h4, _⟩ := C74_register_all s
  rw [e]
  constructor
  · unfold liborStart
    rw [h1, h3]
    rfl
  · intro ccy h
    refine ⟨?_, by rw [h2 ccy h]; simp⟩
    unfold liborStart
    rw [h4 ccy h]

/-- C74: setting up the currencies before the calendars fails, but can be repeated after them, with the same result. -/
theorem C74_currencies_first {sgn : Bool} (s : Sorter sgn) : ∃ g g1 : Global, ccyInit s {} = (g1, false) ∧ registerAll s g1 = (g, true) ∧
    ∃ g', registerAll s {} = (g', true) ∧ g.st.reg = g'.st.reg ∧ (∀ ccy, g.fixDays.get ccy = g'.fixDays.get ccy) ∧
      ∀ ccy, g.fixHols.get ccy = g'.fixHols.get ccy := by
  have hf0 : fromText s (⟨[], [], []⟩ : St) "CN.IB".toList = none := by
    unfold fromText uniqueNames
    have h1 : split ' ' false "CN.IB".toList = ["CN.IB".toList] := by decide +kernel
    have h2 : s.run ["CN.IB".toList] = ["CN.IB".toList] := List.perm_singleton.1 (s.perm _)
    have h3 : dedup sgn ["CN.IB".toList] = ["CN.IB".toList] := by rw [dedup]
    rw [h1, h2, h3, List.mapM_cons]
    rfl
  have e0 : ccyInit s {} = ({ fixDays := (Fact.setDefault {} 2).write "CNY".toList 1 }, false) := by
    unfold ccyInit
    rw [if_neg Bool.false_ne_true]
    dsimp only
    rw [hf0]
  have a : ∀ fd : Fact Str Nat, calendarsInit sgn { fixDays := fd } = ({ st := ⟨[sseCenter, ibCenter], [], []⟩, calInit := true, fixDays := fd }, true) := by
    intro fd
    have a1 := add_free (sgn := sgn) (g := { fixDays := fd }) (w := "CN.SSE".toList) ((acceptable_iff _ _).2 sse_good) (fun c hc => by cases hc)
    have a2 := add_free (sgn := sgn) (g := { st := ⟨[sseCenter], [], []⟩, fixDays := fd }) (w := "CN.IB".toList) ((acceptable_iff _ _).2 ib_good)
      (fun c hc => by rw [List.mem_singleton.1 hc]; exact sse_ib_differ sgn)
    unfold calendarsInit
    rw [if_neg Bool.false_ne_true, a1]
    show (match addTo sgn { st := ⟨[sseCenter], [], []⟩, fixDays := fd } "CN.IB".toList ibHols ibWws with
      | (g, false) => (g, false)
      | (g, true) => ({ g with calInit := true }, true)) = _
    rw [a2]
    rfl
  have hf : fromText s (⟨[sseCenter, ibCenter], [], []⟩ : St) "CN.IB".toList = some [ibCenter] :=
    fromText_ib s _ (ofCenter_ib [] (fun c hc => by cases hc))
  have b : ∀ fd : Fact Str Nat, registerAll s { fixDays := fd } = ({ st := ⟨[sseCenter, ibCenter], [], []⟩, calInit := true, ccyInit := true, parserInit := true, allInit := true, fixDays := (fd.setDefault 2).write "CNY".toList 1, fixHols := Fact.write {} "CNY".toList [ibCenter] }, true) := by
    intro fd
    unfold registerAll
    rw [if_neg Bool.false_ne_true, a fd]
    dsimp only
    unfold ccyInit
    rw [if_neg Bool.false_ne_true]
    dsimp only
    rw [hf]
  refine ⟨_, _, e0, b _, _, b {}, rfl, fun ccy => ?_, fun _ => rfl⟩
  by_cases h : "CNY".toList = ccy
  · subst h; rfl
  · unfold Fact.get Fact.write Fact.setDefault
    dsimp only
    rw [find_assign, find_assign, if_neg h, if_neg h]

end Dal
