import Verif.Script.DomainLemmas

/-! Lemmas for C113: the operations on intervals succeed on proper intervals. -/

namespace Dal
open Dal.Script

variable {K : Type} [Field K] [LinearOrder K] [IsStrictOrderedRing K]

theorem itv_inhabited {i : Itv K} (h : i.WF) : ∃ x, i.mem x := by
  obtain ⟨x, j, hj, hx⟩ := (good_single h).inhabited
  rw [List.mem_singleton] at hj
  exact ⟨x, hj ▸ hx⟩

/-- An interval whose bounds enclose a number is proper. -/
theorem mkItv_of_mem {l r : Bd K} {x : K} (h1 : l ≤ .fin x) (h2 : .fin x ≤ r) : ∃ k, mkItv l r = some k := by
  refine ⟨⟨l, r⟩, if_pos ⟨?_, ?_, h1.trans h2⟩⟩
  · rintro rfl; exact Bd.not_pinf_le_fin x h1
  · rintro rfl; exact Bd.not_fin_le_minf x h2

theorem add_ex {i j : Itv K} (hi : i.WF) (hj : j.WF) : ∃ k, i.add j = some k := by
  obtain ⟨x, h1, h2⟩ := itv_inhabited hi
  obtain ⟨y, h3, h4⟩ := itv_inhabited hj
  obtain ⟨a, b⟩ := i
  obtain ⟨c, d⟩ := j
  simp only at h1 h2 h3 h4
  refine mkItv_of_mem (x := x + y) ?_ ?_
  · cases a with
    | minf => cases c <;> exact Bd.minf_le _
    | fin a =>
      cases c with
      | minf => exact Bd.minf_le _
      | fin c => simp only [Bd.fin_le_fin] at *; exact add_le_add h1 h3
      | pinf => exact absurd h3 (Bd.not_pinf_le_fin y)
    | pinf => exact absurd h1 (Bd.not_pinf_le_fin x)
  · cases b with
    | pinf => cases d <;> exact Bd.le_pinf _
    | fin b =>
      cases d with
      | pinf => exact Bd.le_pinf _
      | fin d => simp only [Bd.fin_le_fin] at *; exact add_le_add h2 h4
      | minf => exact absurd h4 (Bd.not_fin_le_minf y)
    | minf => exact absurd h2 (Bd.not_fin_le_minf x)

theorem opp_ex {i : Itv K} (hi : i.WF) : ∃ k, i.opp = some k := by
  obtain ⟨x, h1, h2⟩ := itv_inhabited hi
  obtain ⟨a, b⟩ := i
  simp only at h1 h2
  refine mkItv_of_mem (x := -x) ?_ ?_
  · cases b with
    | pinf => exact Bd.minf_le _
    | fin b => simp only [Bd.opp, Bd.fin_le_fin] at *; exact neg_le_neg h2
    | minf => exact absurd h2 (Bd.not_fin_le_minf x)
  · cases a with
    | minf => exact Bd.le_pinf _
    | fin a => simp only [Bd.opp, Bd.fin_le_fin] at *; exact neg_le_neg h1
    | pinf => exact absurd h1 (Bd.not_pinf_le_fin x)

theorem sub_ex {i j : Itv K} (hi : i.WF) (hj : j.WF) : ∃ k, i.sub j = some k := by
  obtain ⟨j', h⟩ := opp_ex hj
  obtain ⟨k, hk⟩ := add_ex hi (opp_sound h).1
  exact ⟨k, by rw [Itv.sub, h]; exact hk⟩

theorem mul_ex {i j : Itv K} (hi : i.WF) (hj : j.WF) : ∃ k, i.mul j = some k := by
  unfold Itv.mul
  split
  · exact ⟨_, rfl⟩
  · obtain ⟨x, h1, h2⟩ := itv_inhabited hi
    obtain ⟨y, h3, h4⟩ := itv_inhabited hj
    obtain ⟨a, b⟩ := i
    obtain ⟨c, d⟩ := j
    simp only at h1 h2 h3 h4
    obtain ⟨hu, hl⟩ := mul_le_corner (y := y) h1 h2
    obtain ⟨au, al⟩ := bound_mul_corner (a := a) h3 h4
    obtain ⟨bu, bl⟩ := bound_mul_corner (a := b) h3 h4
    refine mkItv_of_mem (x := x * y) (le_trans ?_ hl) (hu.trans ?_)
    · exact le_min ((le_min ((min_le_right _ _).trans (min_le_right _ _)) ((min_le_right _ _).trans (min_le_left _ _))).trans al)
        ((le_min ((min_le_left _ _).trans (min_le_right _ _)) ((min_le_left _ _).trans (min_le_left _ _))).trans bl)
    · exact max_le (au.trans (max_le ((le_max_right _ _).trans (le_max_right _ _)) ((le_max_left _ _).trans (le_max_right _ _))))
        (bu.trans (max_le ((le_max_right _ _).trans (le_max_left _ _)) ((le_max_left _ _).trans (le_max_left _ _))))

theorem imin_ex {i j : Itv K} (hi : i.WF) (hj : j.WF) : ∃ k, i.imin j = some k := by
  obtain ⟨x, h1, h2⟩ := itv_inhabited hi
  obtain ⟨y, h3, h4⟩ := itv_inhabited hj
  refine mkItv_of_mem (x := min x y) ?_ ?_
  · rcases le_total x y with h | h
    · rw [min_eq_left h]; split
      · next hh => exact hh.le.trans h1
      · exact h1
    · rw [min_eq_right h]; split
      · exact h3
      · next hh => exact (not_lt.1 hh).trans h3
  · have e1 : Bd.fin (min x y) ≤ i.r := le_trans ((Bd.fin_le_fin _ _).2 (min_le_left _ _)) h2
    have e2 : Bd.fin (min x y) ≤ j.r := le_trans ((Bd.fin_le_fin _ _).2 (min_le_right _ _)) h4
    split
    · exact e2
    · exact e1

theorem imax_ex {i j : Itv K} (hi : i.WF) (hj : j.WF) : ∃ k, i.imax j = some k := by
  obtain ⟨x, h1, h2⟩ := itv_inhabited hi
  obtain ⟨y, h3, h4⟩ := itv_inhabited hj
  refine mkItv_of_mem (x := max x y) ?_ ?_
  · have e1 : i.l ≤ Bd.fin (max x y) := h1.trans ((Bd.fin_le_fin _ _).2 (le_max_left _ _))
    have e2 : j.l ≤ Bd.fin (max x y) := h3.trans ((Bd.fin_le_fin _ _).2 (le_max_right _ _))
    split
    · exact e2
    · exact e1
  · rcases le_total x y with h | h
    · rw [max_eq_right h]; split
      · exact h4
      · next hh => exact h4.trans (not_lt.1 hh)
    · rw [max_eq_left h]; split
      · next hh => exact h2.trans hh.le
      · exact h2

theorem itvExt_ex (b : Bool) {i j : Itv K} (hi : i.WF) (hj : j.WF) : ∃ k, itvExt b i j = some k := by
  cases b with
  | true => exact imax_ex hi hj
  | false => exact imin_ex hi hj

/-- Adding computed intervals succeeds when all of them exist and are proper. -/
theorem addAll_ex : (l : List (Option (Itv K))) → (m : Dom K) → DomWF m → (∀ o ∈ l, ∃ k, o = some k ∧ k.WF) → ∃ m', addAll m l = some m'
  | [], m, _, _ => ⟨m, rfl⟩
  | o :: l, m, hm, h => by
    obtain ⟨k, rfl, hk⟩ := h o (by simp)
    obtain ⟨m1, e1, w1, _, _⟩ := addItv_spec hm hk
    obtain ⟨m', e⟩ := addAll_ex l m1 w1 (fun p hp => h p (by simp [hp]))
    exact ⟨m', by rw [addAll, e1]; exact e⟩

theorem domBin_ex {f : Itv K → Itv K → Option (Itv K)} {a b : Dom K} (ha : DomOk a) (hb : DomOk b)
    (hf : ∀ i ∈ a, ∀ j ∈ b, ∃ k, f i j = some k ∧ k.WF) : ∃ d, domBin f a b = some d := by
  refine addAll_ex _ _ nil_WF fun o ho => ?_
  obtain ⟨i, hi, ho⟩ := List.mem_flatMap.1 ho
  obtain ⟨j, hj, rfl⟩ := List.mem_map.1 ho
  exact hf i hi j hj

/-- The same for an operation that succeeds on all proper intervals. -/
theorem domBin_all {f : Itv K → Itv K → Option (Itv K)} {P g} (hs : SoundBin f P g) (hf : ∀ {i j : Itv K}, i.WF → j.WF → ∃ k, f i j = some k)
    {a b : Dom K} (ha : DomOk a) (hb : DomOk b) : ∃ d, domBin f a b = some d ∧ DomOk d := by
  obtain ⟨d, hd⟩ := domBin_ex ha hb fun i hi j hj => by
    obtain ⟨k, hk⟩ := hf (ha.1.1 i hi) (hb.1.1 j hj)
    exact ⟨k, hk, (hs i j k hk).1⟩
  exact ⟨d, hd, (domBin_sound hs ha hb hd).1⟩

theorem domOpp_ex {a : Dom K} (ha : DomOk a) : ∃ d, domOpp a = some d ∧ DomOk d := by
  obtain ⟨d, hd⟩ := addAll_ex (a.map Itv.opp) [] nil_WF fun o ho => by
    obtain ⟨i, hi, rfl⟩ := List.mem_map.1 ho
    obtain ⟨k, hk⟩ := opp_ex (ha.1.1 i hi)
    exact ⟨k, hk, (opp_sound hk).1⟩
  exact ⟨d, hd, (domOpp_sound ha hd).1⟩

theorem applyFunc_ex {f : K → K} {range : Itv K} (hr : range.WF) (a : Dom K) : ∃ d, applyFunc f range a = some d ∧ DomOk d := by
  have : ∃ d, applyFunc f range a = some d := by
    unfold applyFunc
    split
    · refine addAll_ex _ _ nil_WF fun o ho => ?_
      obtain ⟨x, _, rfl⟩ := List.mem_map.1 ho
      exact ⟨_, rfl, single_WF _⟩
    · exact addAll_ex _ _ nil_WF fun o ho => ⟨range, List.mem_singleton.1 ho, hr⟩
  obtain ⟨d, hd⟩ := this
  exact ⟨d, hd, (applyFunc_sound hr hd).1⟩

theorem applyFunc2_ex {f : K → K → K} {range : Itv K} (hr : range.WF) (a b : Dom K) : ∃ d, applyFunc2 f range a b = some d ∧ DomOk d := by
  have : ∃ d, applyFunc2 f range a b = some d := by
    unfold applyFunc2
    split
    · refine addAll_ex _ _ nil_WF fun o ho => ?_
      obtain ⟨x, _, ho⟩ := List.mem_flatMap.1 ho
      obtain ⟨y, _, rfl⟩ := List.mem_map.1 ho
      exact ⟨_, rfl, single_WF _⟩
    · exact addAll_ex _ _ nil_WF fun o ho => ⟨range, List.mem_singleton.1 ho, hr⟩
  obtain ⟨d, hd⟩ := this
  exact ⟨d, hd, (applyFunc2_sound hr hd).1⟩

theorem div_ex {i j : Itv K} (hi : i.WF) {k : Itv K} (hk : j.inv = some k) : ∃ q, i.div j = some q ∧ q.WF := by
  obtain ⟨q, hq⟩ := mul_ex hi (inv_sound hk).1
  have : i.div j = some q := by rw [Itv.div, hk]; exact hq
  exact ⟨q, this, (div_sound i j q this).1⟩

theorem halfLine_inv_ex : ∃ k, (halfLine : Itv K).inv = some k := by
  refine ⟨halfLine, ?_⟩
  have : (halfLine : Itv K).isSingleton = none := rfl
  simp only [Itv.inv, this]
  simp only [halfLine, lt_irrefl, if_false, if_true]
  exact if_pos halfLine_WF

theorem line_inv_ex : ∃ k, (line : Itv K).inv = some k := by
  refine ⟨line, ?_⟩
  have : (line : Itv K).isSingleton = none := rfl
  simp only [Itv.inv, this]
  exact if_pos line_WF

theorem single_inv_ex {c : K} (h : c ≠ 0) : ∃ k, (single c).inv = some k := by
  refine ⟨single (1 / c), ?_⟩
  simp [Itv.inv, single, Itv.isSingleton, h]

/-- Dividing by a domain of one interval that has an inverse. -/
theorem domDiv_ex {a : Dom K} (ha : DomOk a) {j : Itv K} (hj : j.WF) (hi : ∃ k, j.inv = some k) :
    ∃ d, domBin Itv.div a [j] = some d ∧ DomOk d := by
  obtain ⟨k, hk⟩ := hi
  obtain ⟨d, hd⟩ := domBin_ex (f := Itv.div) ha (good_single hj) fun i h j' h' => by
    rw [List.mem_singleton] at h'
    subst h'
    exact div_ex (ha.1.1 i h) hk
  exact ⟨d, hd, (domBin_sound div_sound ha (good_single hj) hd).1⟩

theorem foldl_ex (b : Bool) : (ds : List (Dom K)) → (acc : Dom K) → DomOk acc → (∀ d ∈ ds, DomOk d) →
    ∃ d, ds.foldl (fun acc x => acc.bind fun a => domBin (itvExt b) a x) (some acc) = some d ∧ DomOk d
  | [], acc, ha, _ => ⟨acc, rfl, ha⟩
  | d :: ds, acc, ha, h => by
    obtain ⟨q, hq, gq⟩ := domBin_all (itvExt_sound b) (itvExt_ex b) ha (h d (by simp))
    simp only [List.foldl_cons, Option.bind_some, hq]
    exact foldl_ex b ds q gq fun x hx => h x (by simp [hx])

theorem addDomain_ex {a b : Dom K} (ha : DomOk a) (hb : DomOk b) : ∃ d, addDomain a b = some d ∧ DomOk d := by
  obtain ⟨d, hd⟩ := addAll_total b a ha.1 hb.1.1
  exact ⟨d, hd, (addDomain_spec ha hb hd).1⟩

theorem mergeVars_ex (δ1 : Nat → Dom K) (h1 : ∀ i, DomOk (δ1 i)) : (af : List Nat) → (δ : Nat → Dom K) → (∀ i, DomOk (δ i)) →
    ∃ δ', mergeVars δ1 af δ = some δ'
  | [], δ, _ => ⟨δ, rfl⟩
  | j :: af, δ, hd => by
    obtain ⟨d, hj, g⟩ := addDomain_ex (hd j) (h1 j)
    obtain ⟨δ', h⟩ := mergeVars_ex δ1 h1 af (upd δ j d) (fun i => by unfold upd; split; exacts [g, hd i])
    exact ⟨δ', by rw [mergeVars, hj]; exact h⟩

end Dal
