import Verif.Util.VectorModel
import Mathlib.Tactic.Ring
import Mathlib.Tactic.Linarith
import Mathlib.Tactic.FieldSimp
import Mathlib.Tactic.Positivity

/-! # Lemmas about vectors, algorithms and statistics -/

namespace Dal.Containers

theorem transform2_ok {α β γ : Type} (f : α → β → γ) : ∀ (a : List α) (b : List β), a.length ≤ b.length →
    transform2 f a b = .ok (List.zipWith f a b) := by
  intro a
  induction a with
  | nil => intro b _; simp [transform2]
  | cons x a ih =>
    intro b h
    cases b with
    | nil => simp at h
    | cons y b =>
      have h' : a.length ≤ b.length := by simpa using h
      simp [transform2, ih b h', Res.bind]

theorem transform2_short {α β γ : Type} (f : α → β → γ) : ∀ (a : List α) (b : List β), b.length < a.length →
    transform2 f a b = .undefined := by
  intro a
  induction a with
  | nil => intro b h; simp at h
  | cons x a ih =>
    intro b h
    cases b with
    | nil => simp [transform2]
    | cons y b =>
      have h' : b.length < a.length := by simpa using h
      simp [transform2, ih b h', Res.bind]

theorem equalElements_eq {α : Type} [DecidableEq α] : ∀ (a b : List α), a.length = b.length → equalElements a b = .ok (decide (a = b)) := by
  intro a
  induction a with
  | nil => intro b h; cases b with
    | nil => simp [equalElements]
    | cons y b => simp at h
  | cons x a ih =>
    intro b h
    cases b with
    | nil => simp at h
    | cons y b =>
      have h' : a.length = b.length := by simpa using h
      by_cases hxy : x = y
      · subst hxy; simp [equalElements, ih b h']
      · simp [equalElements, hxy]

section XRange
variable {K : Type} [Field K]

theorem xloop_spec (start dx : K) : ∀ (n i : Nat) (x : List K), i + n ≤ x.length →
    ∃ y, xloop start dx n i x = .ok y ∧ y.length = x.length ∧
      ∀ j, y[j]? = if i ≤ j ∧ j < i + n then some (start + j * dx) else x[j]? := by
  intro n
  induction n with
  | zero => intro i x _; exact ⟨x, rfl, rfl, fun j => by rw [if_neg (by omega)]⟩
  | succ n ih =>
    intro i x h
    have hi : i < x.length := by omega
    obtain ⟨y, hy, hl, hg⟩ := ih (i + 1) (x.set i (start + i * dx)) (by rw [List.length_set]; omega)
    refine ⟨y, ?_, by rw [hl, List.length_set], fun j => ?_⟩
    · simp only [xloop, write, if_pos hi, Res.bind]; exact hy
    · rw [hg j]
      by_cases hij : i = j
      · subst hij
        rw [if_neg (by omega), if_pos (by omega), List.getElem?_set_self hi]
      · rw [List.getElem?_set_ne hij]
        by_cases h1 : i + 1 ≤ j ∧ j < i + 1 + n
        · rw [if_pos h1, if_pos (by omega)]
        · rw [if_neg h1, if_neg (by omega)]

end XRange

theorem mem_uniqueAdj {α : Type} [DecidableEq α] (x : α) : ∀ l : List α, x ∈ uniqueAdj l ↔ x ∈ l := by
  intro l
  induction l with
  | nil => simp [uniqueAdj]
  | cons a l ih =>
    rw [uniqueAdj]
    cases h : uniqueAdj l with
    | nil => rw [h] at ih; simp only [List.mem_cons, ← ih]
    | cons b m =>
      rw [h] at ih
      dsimp only
      by_cases hab : a = b
      · subst hab; rw [if_pos rfl]; simp only [List.mem_cons] at ih ⊢; tauto
      · rw [if_neg hab]; simp only [List.mem_cons] at ih ⊢; tauto

theorem pairwise_uniqueAdj {α : Type} [DecidableEq α] (less : α → α → Bool)
    (htrans : ∀ a b c, less a b = true → less b c = true → less a c = true)
    (htotal : ∀ a b, less a b = false → less b a = false → a = b) :
    ∀ l : List α, l.Pairwise (fun a b => less b a = false) → (uniqueAdj l).Pairwise fun a b => less a b = true := by
  intro l
  induction l with
  | nil => intro _; simp [uniqueAdj]
  | cons a l ih =>
    intro hp
    obtain ⟨ha, hl⟩ := List.pairwise_cons.1 hp
    have := ih hl
    rw [uniqueAdj]
    cases h : uniqueAdj l with
    | nil => simp
    | cons b m =>
      rw [h] at this
      obtain ⟨hb, hm⟩ := List.pairwise_cons.1 this
      dsimp only
      by_cases hab : a = b
      · subst hab; rw [if_pos rfl]; exact this
      · rw [if_neg hab]
        have hbl : b ∈ l := (mem_uniqueAdj b l).1 (by rw [h]; simp)
        have hlt : less a b = true := by
          cases hc : less a b with
          | true => rfl
          | false => exact absurd (htotal a b hc (ha b hbl)) hab
        refine List.pairwise_cons.2 ⟨fun c hc => ?_, this⟩
        rcases List.mem_cons.1 hc with rfl | hc
        · exact hlt
        · exact htrans a b c hlt (hb c hc)

section Maps
variable {κ ν : Type} [LinearOrder κ]

theorem mapInsert_mem {k : κ} {v : ν} : ∀ {m : List (κ × ν)} {e}, e ∈ mapInsert k v m → e = (k, v) ∨ e ∈ m := by
  intro m
  induction m with
  | nil => intro e h; simpa [mapInsert] using h
  | cons e' m ih =>
    intro e h
    rw [mapInsert] at h
    split_ifs at h with h1 h2
    · simpa using h
    · rcases List.mem_cons.1 h with rfl | h
      · right; simp
      · rcases ih h with h | h
        · left; exact h
        · right; simp [h]
    · right; exact h

theorem mapInsert_sorted {k : κ} {v : ν} : ∀ {m : List (κ × ν)}, m.Pairwise (fun a b => a.1 < b.1) →
    (mapInsert k v m).Pairwise fun a b => a.1 < b.1 := by
  intro m
  induction m with
  | nil => intro _; simp [mapInsert]
  | cons e m ih =>
    intro h
    obtain ⟨h1, h2⟩ := List.pairwise_cons.1 h
    rw [mapInsert]
    split_ifs with ha hb
    · refine List.pairwise_cons.2 ⟨fun c hc => ?_, h⟩
      rcases List.mem_cons.1 hc with rfl | hc
      · exact ha
      · exact ha.trans (h1 c hc)
    · refine List.pairwise_cons.2 ⟨fun c hc => ?_, ih h2⟩
      rcases mapInsert_mem hc with rfl | hc
      · exact hb
      · exact h1 c hc
    · exact h

theorem mapFind_insert (k q : κ) (v : ν) : ∀ m : List (κ × ν), m.Pairwise (fun a b => a.1 < b.1) →
    mapFind q (mapInsert k v m) = if q = k then (mapFind k m).orElse (fun _ => some v) else mapFind q m := by
  intro m
  induction m with
  | nil =>
    intro _
    simp only [mapInsert, mapFind]
    by_cases h : q = k
    · simp [h]
    · rw [if_pos (lt_or_gt_of_ne h), if_neg h]
  | cons e m ih =>
    intro hs
    obtain ⟨h1, h2⟩ := List.pairwise_cons.1 hs
    rw [mapInsert]
    by_cases ha : k < e.1
    · rw [if_pos ha]
      have hnone : mapFind k (e :: m) = none := by
        have : ∀ m' : List (κ × ν), (∀ c ∈ m', k < c.1) → mapFind k m' = none := by
          intro m'
          induction m' with
          | nil => intro _; rfl
          | cons c m' ih' =>
            intro h; rw [mapFind, if_pos (Or.inl (h c (by simp)))]
            exact ih' fun d hd => h d (by simp [hd])
        refine this _ fun c hc => ?_
        rcases List.mem_cons.1 hc with rfl | hc
        · exact ha
        · exact ha.trans (h1 c hc)
      by_cases hq : q = k
      · subst hq; rw [if_pos rfl, hnone]; simp [mapFind]
      · rw [if_neg hq]; show mapFind q ((k, v) :: e :: m) = _
        rw [mapFind, if_pos (lt_or_gt_of_ne hq)]
    · rw [if_neg ha]
      by_cases hb : e.1 < k
      · rw [if_pos hb]
        rw [mapFind, ih h2]
        by_cases hq : q = k
        · subst hq
          rw [if_pos (Or.inr hb), if_pos rfl, if_pos rfl, mapFind, if_pos (Or.inr hb)]
        · rw [if_neg hq, if_neg hq, mapFind]
      · rw [if_neg hb]
        have hk : k = e.1 := le_antisymm (not_lt.1 hb) (not_lt.1 ha)
        by_cases hq : q = k
        · subst hq
          rw [if_pos rfl, mapFind, if_neg (by simp [ha, hb])]; rfl
        · rw [if_neg hq]

theorem insertAll_map : ∀ (ks : List κ) (vs : List ν) (m : List (κ × ν)), ks.length = vs.length → m.Pairwise (fun a b => a.1 < b.1) →
    ∃ m', insertAll mapInsert ks vs m = .ok m' ∧ m'.Pairwise (fun a b => a.1 < b.1) ∧
      ∀ q, mapFind q m' = (mapFind q m).orElse fun _ => ((ks.zip vs).find? fun e => decide (e.1 = q)).map Prod.snd := by
  intro ks
  induction ks with
  | nil => intro vs m _ hs; exact ⟨m, rfl, hs, fun q => by cases mapFind q m <;> rfl⟩
  | cons k ks ih =>
    intro vs m hl hs
    cases vs with
    | nil => simp at hl
    | cons v vs =>
      obtain ⟨m', he, hs', hf⟩ := ih vs (mapInsert k v m) (by simpa using hl) (mapInsert_sorted hs)
      refine ⟨m', he, hs', fun q => ?_⟩
      rw [hf q, mapFind_insert k q v m hs]
      by_cases hq : q = k
      · subst hq
        rw [if_pos rfl, List.zip_cons_cons, List.find?_cons_of_pos (by simp)]
        cases mapFind q m <;> rfl
      · rw [if_neg hq, List.zip_cons_cons, List.find?_cons_of_neg (by simpa using fun h => hq h.symm)]

theorem multiInsert_perm (k : κ) (v : ν) : ∀ m : List (κ × ν), (multiInsert k v m).Perm ((k, v) :: m) := by
  intro m
  induction m with
  | nil => simp [multiInsert]
  | cons e m ih =>
    rw [multiInsert]
    split_ifs
    · exact List.Perm.refl _
    · exact (ih.cons e).trans (List.Perm.swap _ _ _)

theorem multiInsert_sorted (k : κ) (v : ν) : ∀ m : List (κ × ν), m.Pairwise (fun a b => a.1 ≤ b.1) →
    (multiInsert k v m).Pairwise fun a b => a.1 ≤ b.1 := by
  intro m
  induction m with
  | nil => intro _; simp [multiInsert]
  | cons e m ih =>
    intro h
    obtain ⟨h1, h2⟩ := List.pairwise_cons.1 h
    rw [multiInsert]
    split_ifs with ha
    · refine List.pairwise_cons.2 ⟨fun c hc => ?_, h⟩
      rcases List.mem_cons.1 hc with rfl | hc
      · exact ha.le
      · exact ha.le.trans (h1 c hc)
    · refine List.pairwise_cons.2 ⟨fun c hc => ?_, ih h2⟩
      rcases List.mem_cons.1 ((multiInsert_perm k v m).mem_iff.1 hc) with rfl | hc
      · exact not_lt.1 ha
      · exact h1 c hc

theorem multiInsert_filter (k q : κ) (v : ν) : ∀ m : List (κ × ν), m.Pairwise (fun a b => a.1 ≤ b.1) →
    (multiInsert k v m).filter (fun e => decide (e.1 = q)) =
      m.filter (fun e => decide (e.1 = q)) ++ if k = q then [(k, v)] else [] := by
  intro m
  induction m with
  | nil => intro _; by_cases h : k = q <;> simp [multiInsert, h]
  | cons e m ih =>
    intro hs
    obtain ⟨h1, h2⟩ := List.pairwise_cons.1 hs
    rw [multiInsert]
    by_cases ha : k < e.1
    · rw [if_pos ha]
      by_cases h : k = q
      · subst h
        have : (e :: m).filter (fun e => decide (e.1 = k)) = [] := by
          rw [List.filter_eq_nil_iff]
          intro c hc
          have : k < c.1 := by
            rcases List.mem_cons.1 hc with rfl | hc
            · exact ha
            · exact ha.trans_le (h1 c hc)
          simpa using this.ne'
        rw [List.filter_cons_of_pos (by simp), this]; simp
      · rw [List.filter_cons_of_neg (by simpa using h), if_neg h, List.append_nil]
    · rw [if_neg ha]
      by_cases he : e.1 = q
      · rw [List.filter_cons_of_pos (by simpa using he), List.filter_cons_of_pos (by simpa using he), ih h2]; rfl
      · rw [List.filter_cons_of_neg (by simpa using he), List.filter_cons_of_neg (by simpa using he), ih h2]

theorem insertAll_multi : ∀ (ks : List κ) (vs : List ν) (m : List (κ × ν)), ks.length = vs.length → m.Pairwise (fun a b => a.1 ≤ b.1) →
    ∃ m', insertAll multiInsert ks vs m = .ok m' ∧ m'.Pairwise (fun a b => a.1 ≤ b.1) ∧ m'.Perm (m ++ ks.zip vs) ∧
      ∀ q, m'.filter (fun e => decide (e.1 = q)) = m.filter (fun e => decide (e.1 = q)) ++ (ks.zip vs).filter fun e => decide (e.1 = q) := by
  intro ks
  induction ks with
  | nil => intro vs m _ hs; exact ⟨m, rfl, hs, by simp, fun q => by simp⟩
  | cons k ks ih =>
    intro vs m hl hs
    cases vs with
    | nil => simp at hl
    | cons v vs =>
      obtain ⟨m', he, hs', hp, hf⟩ := ih vs (multiInsert k v m) (by simpa using hl) (multiInsert_sorted k v m hs)
      refine ⟨m', he, hs', ?_, fun q => ?_⟩
      · refine hp.trans (((multiInsert_perm k v m).append_right _).trans ?_)
        rw [List.zip_cons_cons]
        exact (List.perm_middle (a := (k, v)) (l₁ := m) (l₂ := ks.zip vs)).symm
      · rw [hf q, multiInsert_filter k q v m hs, List.zip_cons_cons]
        by_cases h : k = q
        · rw [if_pos h, List.filter_cons_of_pos (by simpa using h)]; simp
        · rw [if_neg h, List.filter_cons_of_neg (by simpa using h)]; simp

end Maps

set_option linter.unusedSectionVars false

section Stats
variable {K : Type} [Field K] [LinearOrder K] [IsStrictOrderedRing K]

theorem foldl_map (g : K → K) : ∀ (l : List K) (s : K), l.foldl (fun x y => x + g y) s = s + (l.map g).sum := by
  intro l
  induction l with
  | nil => intro s; simp
  | cons a l ih => intro s; rw [List.foldl_cons, ih]; simp [add_assoc]

theorem innerFrom_eq : ∀ (a b : List K) (s : K), a.length ≤ b.length → innerFrom s a b = .ok (s + (List.zipWith (· * ·) a b).sum) := by
  intro a
  induction a with
  | nil => intro b s _; simp [innerFrom]
  | cons x a ih =>
    intro b s h
    cases b with
    | nil => simp at h
    | cons y b => rw [innerFrom, ih b _ (by simpa using h)]; simp [add_assoc]

theorem innerProduct_eq (a b : List K) (h : a.length ≤ b.length) : innerProduct a b = .ok (List.zipWith (· * ·) a b).sum := by
  rw [innerProduct, innerFrom_eq a b 0 h, zero_add]

/-- Products of shifted elements. -/
theorem zipWith_shift (m n : K) : ∀ (a b : List K), a.length = b.length →
    (List.zipWith (· * ·) (a.map (· - m)) (b.map (· - n))).sum =
      (List.zipWith (· * ·) a b).sum - n * a.sum - m * b.sum + a.length * (m * n) := by
  intro a
  induction a with
  | nil => intro b h; have : b = [] := List.length_eq_zero_iff.1 h.symm; subst this; simp
  | cons x a ih =>
    intro b h
    cases b with
    | nil => simp at h
    | cons y b =>
      have := ih b (by simpa using h)
      simp only [List.map_cons, List.zipWith_cons_cons, List.sum_cons, List.length_cons, Nat.cast_add, Nat.cast_one, this]
      ring

theorem zipWith_scale (m n : K) : ∀ (a b : List K),
    (List.zipWith (· * ·) (a.map (· / m)) (b.map (· / n))).sum = (List.zipWith (· * ·) a b).sum / (m * n) := by
  intro a
  induction a with
  | nil => intro b; simp
  | cons x a ih =>
    intro b
    cases b with
    | nil => simp
    | cons y b =>
      simp only [List.map_cons, List.zipWith_cons_cons, List.sum_cons, ih b, add_div]
      rw [div_mul_div_comm]

theorem zipWith_comm (a b : List K) : List.zipWith (· * ·) a b = List.zipWith (· * ·) b a := by
  induction a generalizing b with
  | nil => simp
  | cons x a ih => cases b with
    | nil => simp
    | cons y b => simp only [List.zipWith_cons_cons, ih b, mul_comm x y]

/-- The sum of the squares. -/
def sumSq (a : List K) : K := (a.map fun x => x * x).sum

omit [LinearOrder K] [IsStrictOrderedRing K] in
theorem zipWith_self (a : List K) : (List.zipWith (· * ·) a a).sum = sumSq a := by
  unfold sumSq
  induction a with
  | nil => simp
  | cons x a ih => simp

theorem sumSq_nonneg (a : List K) : 0 ≤ sumSq a := by
  unfold sumSq
  induction a with
  | nil => simp
  | cons x a ih => simp only [List.map_cons, List.sum_cons]; have := mul_self_nonneg x; linarith

theorem cauchy : ∀ (a b : List K), ((List.zipWith (· * ·) a b).sum) ^ 2 ≤ sumSq a * sumSq b := by
  intro a
  induction a with
  | nil => intro b; simp [sumSq]
  | cons x a ih =>
    intro b
    cases b with
    | nil => simp [sumSq]
    | cons y b =>
      have h := ih b
      have ha := sumSq_nonneg a
      have hb := sumSq_nonneg b
      simp only [List.zipWith_cons_cons, List.sum_cons]
      have e1 : sumSq (x :: a) = x * x + sumSq a := by simp [sumSq]
      have e2 : sumSq (y :: b) = y * y + sumSq b := by simp [sumSq]
      rw [e1, e2]
      generalize (List.zipWith (· * ·) a b).sum = C at *
      generalize sumSq a = A at *
      generalize sumSq b = B at *
      have hp : 0 ≤ A * y ^ 2 + B * x ^ 2 := by positivity
      have key : (2 * C * x * y) ^ 2 ≤ (A * y ^ 2 + B * x ^ 2) ^ 2 := by
        have h1 : C ^ 2 * (x * y) ^ 2 ≤ A * B * (x * y) ^ 2 := mul_le_mul_of_nonneg_right h (by positivity)
        have h2 := sq_nonneg (A * y ^ 2 - B * x ^ 2)
        nlinarith
      have := abs_le_of_sq_le_sq key hp
      have h3 := (abs_le.1 this).2
      nlinarith

theorem sumSq_eq_zero {a : List K} (h : sumSq a = 0) : ∀ x ∈ a, x = 0 := by
  induction a with
  | nil => simp
  | cons x a ih =>
    have e1 : sumSq (x :: a) = x * x + sumSq a := by simp [sumSq]
    rw [e1] at h
    have h1 := mul_self_nonneg x
    have h2 := sumSq_nonneg a
    intro y hy
    rcases List.mem_cons.1 hy with rfl | hy
    · exact mul_self_eq_zero.1 (by linarith)
    · exact ih (by linarith) y hy

theorem tiny_pos : (0 : K) < tiny := by unfold tiny; positivity

theorem sum_map_div (m : K) (g : K → K) : ∀ l : List K, (l.map fun x => g x / m).sum = (l.map g).sum / m := by
  intro l
  induction l with
  | nil => simp
  | cons a l ih => simp [ih, add_div]

theorem sum_map_sub (m : K) : ∀ l : List K, (l.map fun x => x - m).sum = l.sum - l.length * m := by
  intro l
  induction l with
  | nil => simp
  | cons a l ih => simp only [List.map_cons, List.sum_cons, ih, List.length_cons, Nat.cast_add, Nat.cast_one]; ring

theorem accumulate_sum (l : List K) : accumulate (· + ·) l = l.sum := by
  rw [accumulate, foldl_map (fun x => x)]; simp

theorem centralized_eq (l : List K) : centralized l = l.map (· - l.sum / l.length) := by
  rw [centralized]; simp only [accumulate_sum]

end Stats

end Dal.Containers
