import Verif.Script.DomainLemmas

/-! # C32: domain analysis -/

namespace Dal
open Dal.Script

variable {K : Type} [Field K] [LinearOrder K] [IsStrictOrderedRing K]

/-- C32, the set of intervals: adding an interval ends, computes exactly the union, and leaves intervals in order with
gaps between them.  (So the round counter of the model is never exhausted and `--begin()` never happens.) -/
theorem C32_add_total {m : Dom K} {i : Itv K} (hm : DomWF m) (hi : i.WF) :
    ∃ m', addItv m i = some m' ∧ DomWF m' ∧ m' ≠ [] ∧ ∀ x, In x m' ↔ i.mem x ∨ In x m :=
  addItv_spec hm hi

/-- C32, any list of additions: the result is the union. -/
theorem C32_union (l : List (Itv K)) (hl : ∀ i ∈ l, i.WF) :
    ∃ m, addAll [] (l.map some) = some m ∧ DomWF m ∧ ∀ x, In x m ↔ ∃ i ∈ l, i.mem x := by
  obtain ⟨m, hm⟩ := addAll_total l [] nil_WF hl
  obtain ⟨h1, _, h3⟩ := addAll_spec _ [] m nil_WF (fun i hi => hl i (by
    obtain ⟨j, hj, he⟩ := List.mem_map.1 hi
    simp only [Option.some.injEq] at he
    exact he ▸ hj)) hm
  refine ⟨m, hm, h1, fun x => ?_⟩
  rw [h3]
  unfold In
  simp

example : addAll [] (([⟨.fin 5, .fin 6⟩, ⟨.fin 0, .fin 1⟩, ⟨.fin 1, .fin 2⟩, ⟨.fin 4, .pinf⟩] : List (Itv Rat)).map some)
    = some [⟨.fin 0, .fin 2⟩, ⟨.fin 4, .pinf⟩] := by decide +kernel

/-- C32: the domain of an expression contains its value.  Partial: the logarithms evaluated must not be negative and
`MAX`/`MIN` arguments after the second must not matter (see the violations below); divisors must not be zero. -/
theorem C32_expression_partial (pow : K → K → K) (log sqrt exp : K → K) (cv : Nat → K) (sp : Sample K) (σ : Nat → K) (δ : Nat → Dom K)
    (hδ : ∀ i, DomOk (δ i)) (hσ : ∀ i, In (σ i) (δ i)) (e : Expr Nat K) (d : Dom K)
    (h : domE (fieldOps pow log sqrt exp) δ e = some d) (hok : OkE pow log sqrt exp cv sp σ e) :
    In (evalE (fieldOps pow log sqrt exp) cv sp σ e) d :=
  domE_sound pow log sqrt exp cv sp σ δ hδ hσ e d h hok

/-- C32: a condition marked always true (always false) is true (false) when evaluated, together with all the
conditions inside it that are evaluated.  Partial as above. -/
theorem C32_condition_partial (pow : K → K → K) (log sqrt exp : K → K) (fuzzy : Bool) (cv : Nat → K) (sp : Sample K) (σ : Nat → K)
    (δ : Nat → Dom K) (hδ : ∀ i, DomOk (δ i)) (hσ : ∀ i, In (σ i) (δ i)) (c c' : Cond Nat K) (p : CProp)
    (h : domC (fieldOps pow log sqrt exp) fuzzy δ c = some (c', p)) (hok : OkC pow log sqrt exp cv sp σ c) :
    (p = .always → evalC (fieldOps pow log sqrt exp) cv sp σ c = true) ∧
    (p = .never → evalC (fieldOps pow log sqrt exp) cv sp σ c = false) ∧
    RightC (fieldOps pow log sqrt exp) cv sp σ c' := by
  obtain ⟨⟨h1, h2⟩, h3⟩ := domC_sound pow log sqrt exp fuzzy cv sp σ δ hδ hσ c c' p h hok
  exact ⟨h1, h2, h3⟩

/-- C32 for one event in a simulation: starting from variables in their domains, the marks met are right, the
processed event (and the event with its decided conditions removed) computes what the original computes, and the
variables end in their domains. -/
theorem C32_event_partial (pow : K → K → K) (log sqrt exp : K → K) (fuzzy : Bool) (cv : Nat → K) (sp : Sample K) (hn : 0 < sp.numeraire)
    (ev ev' : Stmts Nat K) (σ : Nat → K) (δ δ' : Nat → Dom K) (h : domSs (fieldOps pow log sqrt exp) fuzzy ev δ = some (ev', δ'))
    (hδ : ∀ i, DomOk (δ i)) (hσ : ∀ i, In (σ i) (δ i)) (hrec : RecSs ev) (hok : OkSs pow log sqrt exp true cv sp ev σ) :
    (∀ i, In (execs (fieldOps pow log sqrt exp) cv sp ev σ i) (δ' i)) ∧
    execs (fieldOps pow log sqrt exp) cv sp ev' σ = execs (fieldOps pow log sqrt exp) cv sp ev σ ∧
    execs (fieldOps pow log sqrt exp) cv sp (ccSs ev') σ = execs (fieldOps pow log sqrt exp) cv sp ev σ := by
  obtain ⟨h1, h2, h3⟩ := domSs_sound pow log sqrt exp fuzzy true cv sp (fun _ => hn) ev σ δ ev' δ' h hδ hσ hrec hok
  have h4 := ccSs_gexec (fieldOps pow log sqrt exp) true cv sp ev' σ h2
  simp only [gexecs_true] at h1 h3 h4
  exact ⟨h1, h3, h4.trans h3⟩

/-- One event of a product: simulated (`true`) or past (`false`), with its sample. -/
abbrev Dated (K : Type) := Bool × Stmts Nat K × Sample K

/-- Events in order, the past ones with the evaluator for past events. -/
def runAll (o : Ops K) (cv : Nat → K) (evs : List (Dated K)) (σ : Nat → K) : Nat → K :=
  evs.foldl (fun s ev => if ev.1 then execs o cv ev.2.2 ev.2.1 s else pastExecs o cv ev.2.2 ev.2.1 s) σ

theorem runAll_cons (o : Ops K) (cv : Nat → K) (ev : Dated K) (evs : List (Dated K)) (σ : Nat → K) :
    runAll o cv (ev :: evs) σ = runAll o cv evs (gexecs o ev.1 cv ev.2.2 ev.2.1 σ) := by
  obtain ⟨b, st, sp⟩ := ev
  simp only [runAll, List.foldl_cons]
  cases b with
  | true => rw [gexecs_true]; rfl
  | false => rw [gexecs_false]; rfl

/-- C32 for a product: analysing the events in order from the domains {0} and removing the decided conditions does not
change any variable, in any scenario with positive numeraires.  Partial as above. -/
theorem C32_product_partial (pow : K → K → K) (log sqrt exp : K → K) (fuzzy : Bool) (cv : Nat → K) : (evs : List (Dated K)) →
    (evs' : List (Stmts Nat K)) → (σ : Nat → K) → (δ δ' : Nat → Dom K) →
    domEvents (fieldOps pow log sqrt exp) fuzzy (evs.map fun ev => ev.2.1) δ = some (evs', δ') →
    (∀ i, DomOk (δ i)) → (∀ i, In (σ i) (δ i)) →
    (∀ ev ∈ evs, (ev.1 = true → 0 < ev.2.2.numeraire) ∧ RecSs ev.2.1) →
    (∀ pre ev post, evs = pre ++ ev :: post → OkSs pow log sqrt exp ev.1 cv ev.2.2 ev.2.1 (runAll (fieldOps pow log sqrt exp) cv pre σ)) →
    evs'.length = evs.length ∧
    (∀ i, In (runAll (fieldOps pow log sqrt exp) cv evs σ i) (δ' i)) ∧
    runAll (fieldOps pow log sqrt exp) cv (List.zipWith (fun ev st => (ev.1, ccSs st, ev.2.2)) evs evs') σ
      = runAll (fieldOps pow log sqrt exp) cv evs σ
  | [], evs', σ, δ, δ', h, hδ, hσ, hev, hok => by
    simp only [List.map_nil, domEvents, Option.some.injEq, Prod.mk.injEq] at h
    obtain ⟨rfl, rfl⟩ := h
    exact ⟨rfl, hσ, rfl⟩
  | ev :: evs, evs', σ, δ, δ', h, hδ, hσ, hev, hok => by
    simp only [List.map_cons, domEvents] at h
    obtain ⟨⟨ev1, δ1⟩, h1, h⟩ := Option.bind_eq_some_iff.1 h
    simp only [Option.map_eq_some_iff, Prod.mk.injEq] at h
    obtain ⟨⟨evs2, δ2⟩, h2, rfl, rfl⟩ := h
    try simp only at h2
    obtain ⟨hn, hrec⟩ := hev ev (by simp)
    have hok1 := hok [] ev evs rfl
    simp only [runAll, List.foldl_nil] at hok1
    obtain ⟨g1, _⟩ := domSs_good pow log sqrt exp fuzzy ev.2.1 δ ev1 δ1 h1 hδ
    obtain ⟨a1, b1, c1⟩ := domSs_sound pow log sqrt exp fuzzy ev.1 cv ev.2.2 hn ev.2.1 σ δ ev1 δ1 h1 hδ hσ hrec hok1
    have d1 := ccSs_gexec (fieldOps pow log sqrt exp) ev.1 cv ev.2.2 ev1 σ b1
    obtain ⟨l2, a2, b2⟩ := C32_product_partial pow log sqrt exp fuzzy cv evs evs2 _ δ1 δ2 h2 g1 a1
      (fun e he => hev e (by simp [he])) (fun pre e post he => by
        have := hok (ev :: pre) e post (by rw [he]; rfl)
        rwa [runAll_cons] at this)
    refine ⟨by simp [l2], ?_, ?_⟩
    · rw [runAll_cons]
      exact a2
    · simp only [List.zipWith_cons_cons]
      rw [runAll_cons, runAll_cons]
      simp only
      rw [d1, c1]
      exact b2

/-- The initial domains fit the initial variables. -/
theorem C32_initial : (∀ i, DomOk ((domInit : Nat → Dom K) i)) ∧ ∀ i, In (0 : K) (domInit i) :=
  ⟨fun _ => good_single (single_WF 0), fun _ => ⟨single 0, by simp [domInit], single_mem 0⟩⟩

/-! A barrier script: `alive = 1` in the past, then `IF alive > 0 THEN IF spot > 100 THEN alive = 0`,
then `IF alive >= 0 THEN pay pays alive * 5`. -/

/-- Its events. -/
def exBarrier : List (Stmts Nat Rat) :=
  [.cons (.assign ⟨0, false⟩ (.const 1)) .nil,
   .cons (.ite (.cmp .sup (.var 0 none) ⟨-1, false, 0, 0⟩ ⟨false, false⟩)
     (.cons (.ite (.cmp .sup (.bin .sub .spot (.const 100) none) ⟨-1, false, 0, 0⟩ ⟨false, false⟩)
       (.cons (.assign ⟨0, false⟩ (.const 0)) .nil) false .nil [0] ⟨false, false⟩) .nil) false .nil [0] ⟨false, false⟩) .nil,
   .cons (.ite (.cmp .supEq (.var 0 none) ⟨-1, false, 0, 0⟩ ⟨false, false⟩)
     (.cons (.pays ⟨1, false⟩ (.bin .mul (.var 0 none) (.const 5) none)) .nil) false .nil [1] ⟨false, false⟩) .nil]

/-- The domains after the analysis: `alive` is 0 or 1, `pay` is not negative. -/
example : ((domEvents (fieldOps (fun x _ => x) id id id) false exBarrier domInit).map fun r => (r.2 0, r.2 1))
    = some ([single 0, single 1], [halfLine]) := by decide +kernel

/-- Every event of it is accepted with the hypotheses of the theorem, whatever the spots. -/
example (s1 s2 : Rat) (st : Stmts Nat Rat × Sample Rat)
    (hst : st = (exBarrier[1], ⟨s1, 1⟩) ∨ st = (exBarrier[2], ⟨s2, 1⟩)) (σ : Nat → Rat) :
    RecSs st.1 ∧ OkSs (fun x _ => x) id id id true (fun _ => 0) st.2 st.1 σ := by
  rcases hst with rfl | rfl
  · refine ⟨?_, ?_⟩
    · simp [exBarrier, RecSs, RecS, targetss, targets]
    · simp [exBarrier, OkSs, OkS, OkC, OkE]
  · refine ⟨?_, ?_⟩
    · simp [exBarrier, RecSs, RecS, targetss, targets]
    · simp [exBarrier, OkSs, OkS, OkC, OkE]

/-! ### Discrete values -/

theorem mem_unique {d : Dom K} (hd : DomWF d) {i j : Itv K} (hi : i ∈ d) (hj : j ∈ d) {x : K} (h1 : i.mem x) (h2 : j.mem x) : i = j := by
  obtain ⟨_, hp⟩ := hd
  induction d with
  | nil => simp at hi
  | cons a t ih =>
    rw [List.pairwise_cons] at hp
    rcases List.mem_cons.1 hi with rfl | hi' <;> rcases List.mem_cons.1 hj with rfl | hj'
    · rfl
    · exact absurd (h1.2.trans_lt ((hp.1 j hj').trans_le h2.1)) (lt_irrefl _)
    · exact absurd (h2.2.trans_lt ((hp.1 i hi').trans_le h1.1)) (lt_irrefl _)
    · exact ih hi' hj' (fun x hx => by rename_i hw; exact hw x (by simp [hx])) hp.2

theorem isZero_mem_zero {i : Itv K} (h : i.isZero = true) : i.mem 0 := by
  obtain ⟨l, r⟩ := i
  unfold Itv.isZero Itv.isSingleton at h
  cases l with
  | minf => simp at h
  | pinf => simp at h
  | fin a =>
    cases r with
    | minf => simp at h
    | pinf => simp at h
    | fin b =>
      simp only [decide_eq_true_eq] at h
      split at h
      · next hab =>
        simp only [Option.some.injEq] at h
        subst hab; subst h
        exact single_mem _
      · simp at h

/-- Zero is not in the domain, or is isolated in it. -/
theorem no_zero {d : Dom K} (hd : DomOk d) (hz : canBeZero d = false ∨ zeroIsDiscrete d = true) {i : Itv K} (hi : i ∈ d) {x : K}
    (hx : i.mem x) (h0 : x ≠ 0) : ¬ i.mem 0 := by
  intro h
  rcases hz with hz | hz
  · rw [canBeZero_of ⟨i, hi, h⟩] at hz
    cases hz
  · obtain ⟨j, hj, hjz⟩ := List.any_eq_true.1 hz
    have := mem_unique hd.1 hi hj h (isZero_mem_zero hjz)
    subst this
    exact h0 (isZero_mem hjz hx)

theorem find_first {R : Itv K → Itv K → Prop} {p : Itv K → Bool} : (l : List (Itv K)) → l.Pairwise R → (i : Itv K) → i ∈ l → p i = true →
    ∃ j, l.find? p = some j ∧ p j = true ∧ j ∈ l ∧ (j = i ∨ R j i)
  | [], _, i, hi, _ => by simp at hi
  | a :: l, hp, i, hi, h => by
    rw [List.pairwise_cons] at hp
    cases ha : p a with
    | true =>
      refine ⟨a, by simp [List.find?, ha], ha, by simp, ?_⟩
      rcases List.mem_cons.1 hi with rfl | hi
      · exact Or.inl rfl
      · exact Or.inr (hp.1 i hi)
    | false =>
      rcases List.mem_cons.1 hi with rfl | hi
      · rw [ha] at h; cases h
      · obtain ⟨j, h1, h2, h3, h4⟩ := find_first l hp.2 i hi h
        exact ⟨j, by simp [List.find?, ha, h1], h2, by simp [h3], h4⟩

theorem posLb {d : Dom K} (hd : DomOk d) (hz : canBeZero d = false ∨ zeroIsDiscrete d = true) {x : K} (hx : In x d) (h0 : 0 < x) :
    ∃ v, smallestPosLb d = some v ∧ 0 < v ∧ v ≤ x := by
  obtain ⟨i, hi, hm⟩ := hx
  have hn := no_zero hd hz hi hm h0.ne'
  have hl : .fin 0 < i.l := by
    by_contra hc
    exact hn ⟨not_lt.1 hc, ((Bd.fin_le_fin _ _).2 h0.le).trans hm.2⟩
  obtain ⟨j, h1, h2, h3, h4⟩ := find_first (p := fun i => decide (.fin 0 < i.l)) d hd.1.2 i hi (by simpa using hl)
  have hle : j.l ≤ i.l := by
    rcases h4 with rfl | h4
    · exact le_rfl
    · exact (hd.1.1 j h3).2.2.trans h4.le
  unfold smallestPosLb
  rw [h1]
  simp only [Option.bind_some]
  simp only [decide_eq_true_eq] at h2
  have hlx := hle.trans hm.1
  cases hj : j.l with
  | minf => rw [hj] at h2; exact absurd (h2.trans (Bd.minf_lt_fin _)) (lt_irrefl _)
  | pinf => rw [hj] at hlx; exact absurd hlx (Bd.not_pinf_le_fin x)
  | fin v =>
    rw [hj] at h2 hlx
    exact ⟨v, rfl, (Bd.fin_lt_fin _ _).1 h2, (Bd.fin_le_fin _ _).1 hlx⟩

theorem negRb {d : Dom K} (hd : DomOk d) (hz : canBeZero d = false ∨ zeroIsDiscrete d = true) {x : K} (hx : In x d) (h0 : x < 0) :
    ∃ v, biggestNegRb d = some v ∧ v < 0 ∧ x ≤ v := by
  obtain ⟨i, hi, hm⟩ := hx
  have hn := no_zero hd hz hi hm h0.ne
  have hl : i.r < .fin 0 := by
    by_contra hc
    exact hn ⟨hm.1.trans ((Bd.fin_le_fin _ _).2 h0.le), not_lt.1 hc⟩
  obtain ⟨j, h1, h2, h3, h4⟩ := find_first (p := fun i => decide (i.r < .fin 0)) (R := fun a b => b.r < a.l) d.reverse
    (List.pairwise_reverse.2 hd.1.2) i (by simpa using hi) (by simpa using hl)
  have hle : i.r ≤ j.r := by
    rcases h4 with rfl | h4
    · exact le_rfl
    · exact h4.le.trans (hd.1.1 j (by simpa using h3)).2.2
  unfold biggestNegRb
  rw [h1]
  simp only [Option.bind_some]
  simp only [decide_eq_true_eq] at h2
  have hlx := hm.2.trans hle
  cases hj : j.r with
  | pinf => rw [hj] at h2; exact absurd (h2.trans (Bd.fin_lt_pinf _)) (lt_irrefl _)
  | minf => rw [hj] at hlx; exact absurd hlx (Bd.not_fin_le_minf x)
  | fin v =>
    rw [hj] at h2 hlx
    exact ⟨v, rfl, (Bd.fin_lt_fin _ _).1 h2, (Bd.fin_le_fin _ _).1 hlx⟩

theorem exists_pos {i : Itv K} (hi : i.WF) (h : .fin 0 < i.r) : ∃ y, 0 < y ∧ i.mem y := by
  obtain ⟨l, r⟩ := i
  obtain ⟨h1, h2, h3⟩ := hi
  simp only at h h1 h2 h3
  cases r with
  | minf => exact absurd rfl h2
  | fin b => exact ⟨b, (Bd.fin_lt_fin _ _).1 h, h3, le_rfl⟩
  | pinf =>
    cases l with
    | minf => exact ⟨1, one_pos, Bd.minf_le _, Bd.le_pinf _⟩
    | fin a => exact ⟨max a 1, lt_max_of_lt_right one_pos, (Bd.fin_le_fin _ _).2 (le_max_left _ _), Bd.le_pinf _⟩
    | pinf => exact absurd rfl h1

theorem exists_neg {i : Itv K} (hi : i.WF) (h : i.l < .fin 0) : ∃ y, y < 0 ∧ i.mem y := by
  obtain ⟨l, r⟩ := i
  obtain ⟨h1, h2, h3⟩ := hi
  simp only at h h1 h2 h3
  cases l with
  | pinf => exact absurd rfl h1
  | fin b => exact ⟨b, (Bd.fin_lt_fin _ _).1 h, le_rfl, h3⟩
  | minf =>
    cases r with
    | pinf => exact ⟨-1, neg_lt_zero.2 one_pos, Bd.minf_le _, Bd.le_pinf _⟩
    | fin a => exact ⟨min a (-1), min_lt_of_right_lt (neg_lt_zero.2 one_pos), Bd.minf_le _, (Bd.fin_le_fin _ _).2 (min_le_left _ _)⟩
    | minf => exact absurd rfl h2

theorem pos_of_strict {d : Dom K} (hd : DomOk d) (h : canBePositive true d = true) : ∃ y, 0 < y ∧ In y d := by
  unfold canBePositive at h
  split at h
  · simp at h
  · next i hl =>
    have hi := List.mem_of_getLast? hl
    obtain ⟨y, h1, h2⟩ := exists_pos (hd.1.1 i hi) (by simpa using h)
    exact ⟨y, h1, i, hi, h2⟩

theorem neg_of_strict {d : Dom K} (hd : DomOk d) (h : canBeNegative true d = true) : ∃ y, y < 0 ∧ In y d := by
  unfold canBeNegative at h
  split at h
  · simp at h
  · next i hl =>
    have hi := List.mem_of_mem_head? (by rw [hl]; rfl : i ∈ d.head?)
    obtain ⟨y, h1, h2⟩ := exists_neg (hd.1.1 i hi) (by simpa using h)
    exact ⟨y, h1, i, hi, h2⟩

theorem strict_of_noZero_pos {d : Dom K} (hd : DomOk d) (hz : canBeZero d = false) (h : canBePositive false d = true) : canBePositive true d = true := by
  unfold canBePositive at h ⊢
  split at h
  · simp at h
  · next i hl =>
    have hi := List.mem_of_getLast? hl
    simp only [Bool.false_eq_true, if_false, decide_eq_true_eq] at h
    simp only [if_true, decide_eq_true_eq]
    refine lt_of_le_of_ne h (fun he => ?_)
    have : i.mem 0 := ⟨he ▸ (hd.1.1 i hi).2.2, h⟩
    rw [canBeZero_of ⟨i, hi, this⟩] at hz
    cases hz

theorem strict_of_noZero_neg {d : Dom K} (hd : DomOk d) (hz : canBeZero d = false) (h : canBeNegative false d = true) : canBeNegative true d = true := by
  unfold canBeNegative at h ⊢
  split at h
  · simp at h
  · next i hl =>
    have hi := List.mem_of_mem_head? (by rw [hl]; rfl : i ∈ d.head?)
    simp only [Bool.false_eq_true, if_false, decide_eq_true_eq] at h
    simp only [if_true, decide_eq_true_eq]
    refine lt_of_le_of_ne h (fun he => ?_)
    have : i.mem 0 := ⟨h, he ▸ (hd.1.1 i hi).2.2⟩
    rw [canBeZero_of ⟨i, hi, this⟩] at hz
    cases hz

/-- C32 and C34: when the analysis finds a comparison discrete, every value the expression can take is outside the
smoothing band it computes, so that smoothing never changes such a comparison. -/
theorem C32_discrete_bounds (op : CmpOp) {d : Dom K} (hd : DomOk d) (hp : cmpProp op d = .either) (a : CmpAttr K)
    (hdis : (cmpAttr op d a).discrete = true) (defEps x : K) (hx : In x d) : OutsideBand op (cmpAttr op d a) defEps x := by
  unfold OutsideBand
  rw [if_pos hdis]
  cases op with
  | equal =>
    simp only [cmpAttr] at hdis ⊢
    split at hdis
    · next hz =>
      try simp only
      have hr : 0 < (smallestPosLb d).getD (1 / 2) := by
        cases h : smallestPosLb d with
        | none => simp
        | some v =>
          unfold smallestPosLb at h
          obtain ⟨i, hi, hv⟩ := Option.bind_eq_some_iff.1 h
          have := List.find?_some hi
          simp only [decide_eq_true_eq] at this
          cases hl : i.l with
          | minf => rw [hl] at hv; simp [Bd.val?] at hv
          | pinf => rw [hl] at hv; simp [Bd.val?] at hv
          | fin w =>
            rw [hl] at hv this
            simp only [Bd.val?, Option.some.injEq] at hv
            exact hv ▸ (Bd.fin_lt_fin _ _).1 this
      have hlb : (biggestNegRb d).getD (-(1 / 2)) < 0 := by
        cases h : biggestNegRb d with
        | none => simp
        | some v =>
          unfold biggestNegRb at h
          obtain ⟨i, hi, hv⟩ := Option.bind_eq_some_iff.1 h
          have := List.find?_some hi
          simp only [decide_eq_true_eq] at this
          cases hl : i.r with
          | minf => rw [hl] at hv; simp [Bd.val?] at hv
          | pinf => rw [hl] at hv; simp [Bd.val?] at hv
          | fin w =>
            rw [hl] at hv this
            simp only [Bd.val?, Option.some.injEq] at hv
            exact hv ▸ (Bd.fin_lt_fin _ _).1 this
      rw [if_pos hz]
      refine ⟨hlb, hr, ?_⟩
      rcases lt_trichotomy x 0 with h0 | h0 | h0
      · obtain ⟨v, h1, _, h3⟩ := negRb hd (Or.inr hz) hx h0
        left
        simp only [h1, Option.getD_some]
        exact h3
      · exact Or.inr (Or.inr h0)
      · obtain ⟨v, h1, _, h3⟩ := posLb hd (Or.inr hz) hx h0
        right; left
        simp only [h1, Option.getD_some]
        exact h3
    · simp at hdis
  | sup =>
    simp only [cmpProp] at hp
    have hpos : canBePositive true d = true := by
      cases h : canBePositive true d with
      | true => rfl
      | false => rw [h] at hp; simp at hp
    have hneg : canBeNegative false d = true := by
      cases h : canBeNegative false d with
      | true => rfl
      | false => rw [h, hpos] at hp; simp at hp
    obtain ⟨y, y0, hy⟩ := pos_of_strict hd hpos
    simp only [cmpAttr] at hdis ⊢
    cases hz : canBeZero d with
    | false =>
      rw [if_pos (by decide)]
      simp only
      obtain ⟨z, z0, hzz⟩ := neg_of_strict hd (strict_of_noZero_neg hd hz hneg)
      obtain ⟨v, v1, v2, _⟩ := posLb hd (Or.inl hz) hy y0
      obtain ⟨w, w1, w2, _⟩ := negRb hd (Or.inl hz) hzz z0
      rw [v1, w1]
      simp only [Option.getD_some]
      refine ⟨w2.le, v2, ?_⟩
      rcases lt_trichotomy x 0 with h0 | h0 | h0
      · obtain ⟨v', h1, _, h3⟩ := negRb hd (Or.inl hz) hx h0
        rw [w1] at h1
        simp only [Option.some.injEq] at h1
        exact Or.inl (h1 ▸ h3)
      · rw [h0] at hx
        rw [canBeZero_of hx] at hz
        cases hz
      · obtain ⟨v', h1, _, h3⟩ := posLb hd (Or.inl hz) hx h0
        rw [v1] at h1
        simp only [Option.some.injEq] at h1
        exact Or.inr (h1 ▸ h3)
    | true =>
      rw [hz] at hdis
      simp only [Bool.not_true, Bool.false_eq_true, if_false] at hdis ⊢
      split at hdis
      · next hzd =>
        rw [if_pos hzd]
        simp only
        obtain ⟨v, v1, v2, _⟩ := posLb hd (Or.inr hzd) hy y0
        rw [v1]
        simp only [Option.getD_some]
        refine ⟨le_rfl, v2, ?_⟩
        rcases le_or_gt x 0 with h0 | h0
        · exact Or.inl h0
        · obtain ⟨v', h1, _, h3⟩ := posLb hd (Or.inr hzd) hx h0
          rw [v1] at h1
          simp only [Option.some.injEq] at h1
          exact Or.inr (h1 ▸ h3)
      · simp at hdis
  | supEq =>
    simp only [cmpProp] at hp
    have hpos : canBePositive false d = true := by
      cases h : canBePositive false d with
      | true => rfl
      | false => rw [h] at hp; simp at hp
    have hneg : canBeNegative true d = true := by
      cases h : canBeNegative true d with
      | true => rfl
      | false => rw [h, hpos] at hp; simp at hp
    obtain ⟨y, y0, hy⟩ := neg_of_strict hd hneg
    simp only [cmpAttr] at hdis ⊢
    cases hz : canBeZero d with
    | false =>
      rw [if_pos (by decide)]
      simp only
      obtain ⟨z, z0, hzz⟩ := pos_of_strict hd (strict_of_noZero_pos hd hz hpos)
      obtain ⟨v, v1, v2, _⟩ := negRb hd (Or.inl hz) hy y0
      obtain ⟨w, w1, w2, _⟩ := posLb hd (Or.inl hz) hzz z0
      rw [v1, w1]
      simp only [Option.getD_some]
      refine ⟨v2, w2.le, ?_⟩
      rcases lt_trichotomy x 0 with h0 | h0 | h0
      · obtain ⟨v', h1, _, h3⟩ := negRb hd (Or.inl hz) hx h0
        rw [v1] at h1
        simp only [Option.some.injEq] at h1
        exact Or.inl (h1 ▸ h3)
      · rw [h0] at hx
        rw [canBeZero_of hx] at hz
        cases hz
      · obtain ⟨v', h1, _, h3⟩ := posLb hd (Or.inl hz) hx h0
        rw [w1] at h1
        simp only [Option.some.injEq] at h1
        exact Or.inr (h1 ▸ h3)
    | true =>
      rw [hz] at hdis
      simp only [Bool.not_true, Bool.false_eq_true, if_false] at hdis ⊢
      split at hdis
      · next hzd =>
        rw [if_pos hzd]
        simp only
        obtain ⟨v, v1, v2, _⟩ := negRb hd (Or.inr hzd) hy y0
        rw [v1]
        simp only [Option.getD_some]
        refine ⟨v2, le_rfl, ?_⟩
        rcases lt_or_ge x 0 with h0 | h0
        · obtain ⟨v', h1, _, h3⟩ := negRb hd (Or.inr hzd) hx h0
          rw [v1] at h1
          simp only [Option.some.injEq] at h1
          exact Or.inl (h1 ▸ h3)
        · exact Or.inr h0
      · simp at hdis

/-- The domain {0} ∪ {1} (a barrier flag) compared with zero is discrete, with the band [0,1]. -/
example : DomOk ([single 0, single 1] : Dom Rat) ∧ cmpProp .sup ([single 0, single 1] : Dom Rat) = .either ∧
    cmpAttr .sup [single 0, single 1] (⟨-1, false, 0, 0⟩ : CmpAttr Rat) = ⟨-1, true, 0, 1⟩ := by
  refine ⟨⟨⟨?_, ?_⟩, by simp⟩, by decide +kernel, by rfl⟩
  · intro i hi
    simp only [List.mem_cons, List.not_mem_nil, or_false] at hi
    rcases hi with rfl | rfl <;> exact single_WF _
  · simp only [List.pairwise_cons, List.mem_singleton, forall_eq, List.not_mem_nil, List.Pairwise.nil, and_true, single]
    exact ⟨(Bd.fin_lt_fin _ _).2 (by decide +kernel), by simp⟩

/-! ### Violations -/

/-- `IF LOG(SPOT()) >= 0 THEN x = 1 ELSE x = 2` -/
def logEvent : Stmts Nat K :=
  .cons (.ite (.cmp .supEq (.un .log .spot none) ⟨-1, false, 0, 0⟩ ⟨false, false⟩)
    (.cons (.assign ⟨0, false⟩ (.const 1)) .nil) true (.cons (.assign ⟨0, false⟩ (.const 2)) .nil) [0] ⟨false, false⟩) .nil

/-- The claim fails for logarithms: their range is taken to be [0,∞) (domainproc.hpp:129), so that
`LOG(SPOT()) >= 0` is marked always true.  For every spot with a negative logarithm the removal of the decided
condition changes the product. -/
theorem C32_log_violated (pow : K → K → K) (log sqrt exp : K → K) (s : K) (hs : log s < 0) :
    ∃ ev' δ', domSs (fieldOps pow log sqrt exp) false (logEvent : Stmts Nat K) domInit = some (ev', δ') ∧
      execs (fieldOps pow log sqrt exp) (fun _ => 0) ⟨s, 1⟩ logEvent (fun _ => 0) 0 = 2 ∧
      execs (fieldOps pow log sqrt exp) (fun _ => 0) ⟨s, 1⟩ (ccSs ev') (fun _ => 0) 0 = 1 := by
  have hdom : domE (fieldOps pow log sqrt exp) domInit (.un .log .spot none : Expr Nat K) = some [halfLine] := by
    simp only [domE, applyFunc, line, singletons, Itv.isSingleton]
    simp only [addAll, addItv, addLoop, if_true, Option.bind_some]
  have hc : cmpProp .supEq ([halfLine] : Dom K) = .always := by
    simp only [cmpProp, canBePositive, canBeNegative, List.getLast?_singleton, List.head?_cons, halfLine]
    simp [Bd.le_pinf]
  refine ⟨_, _, by
    simp only [logEvent, domSs, domS, domC, hdom, hc, Option.bind_some]
    rfl, ?_, ?_⟩
  · simp [logEvent, execs, exec, evalC, evalCmp, evalE, evalUn, fieldOps, not_le.2 hs]
    simp [upd]
  · simp [ccSs, ccS, execs, exec, evalE, upd]

example : (fun x : Rat => x - 1) (1 / 2) < 0 := by decide +kernel

/-- `IF MAX(1,2,5) > 3 THEN x = 1 ELSE x = 2` -/
def maxEvent : Stmts Nat Rat :=
  .cons (.ite (.cmp .sup (.bin .sub (.extra (.bin .max (.const 1) (.const 2) none) (.const 5) none) (.const 3) none)
      ⟨-1, false, 0, 0⟩ ⟨false, false⟩)
    (.cons (.assign ⟨0, false⟩ (.const 1)) .nil) true (.cons (.assign ⟨0, false⟩ (.const 2)) .nil) [0] ⟨false, false⟩) .nil

/-- The claim fails for `MAX` of three arguments: the analysis uses all of them, the evaluator the first two. -/
theorem C32_max_violated :
    ((domSs (fieldOps (fun x _ => x) id id id) false maxEvent domInit).map fun r =>
      (execs (fieldOps (fun x _ => x) id id id) (fun _ => 0) ⟨100, 1⟩ maxEvent (fun _ => 0) 0,
       execs (fieldOps (fun x _ => x) id id id) (fun _ => 0) ⟨100, 1⟩ (ccSs r.1) (fun _ => 0) 0)) = some ((2 : Rat), (1 : Rat)) := by
  decide +kernel

end Dal
