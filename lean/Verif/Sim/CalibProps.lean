import Verif.Sim.CalibModel
import Verif.Interp.SearchLemmas
import Verif.Interp.LinearProps
import Mathlib.Analysis.SpecialFunctions.Exponential
import Mathlib.Tactic.Linarith
import Mathlib.Tactic.FieldSimp
import Mathlib.Tactic.LinearCombination

/-!
# C79: local volatilities and their calibration

Specification: every spot of the grid gets the local volatility of the nearest spot that lies within the range; the local volatility is the one of the forward equation of
Dupire; the jump price is the Poisson mixture.
-/

namespace Dal
open Dal.Calib

/-! ## Calibration at one maturity -/

private theorem first_spec (spots : Nat → ℝ) (lo : ℝ) : ∀ left il, (∀ i, i < il → spots i < lo) → il ≤ firstIn spots lo left il ∧ firstIn spots lo left il ≤ il + left ∧
    (∀ i, i < firstIn spots lo left il → spots i < lo) ∧ (firstIn spots lo left il < il + left → lo ≤ spots (firstIn spots lo left il)) := by
  intro left
  induction left with
  | zero => intro il h; exact ⟨Nat.le_refl _, Nat.le_refl _, h, fun h => absurd h (Nat.lt_irrefl _)⟩
  | succ left ih =>
    intro il h
    rw [firstIn]
    by_cases hlt : spots il < lo
    · rw [if_pos hlt]
      obtain ⟨a, b, c, d⟩ := ih (il + 1) (fun i hi => by
        rcases Nat.lt_or_eq_of_le (Nat.lt_succ_iff.1 hi) with h' | rfl
        · exact h i h'
        · exact hlt)
      exact ⟨by omega, by omega, c, fun h' => d (by omega)⟩
    · rw [if_neg hlt]
      exact ⟨Nat.le_refl _, by omega, h, fun _ => not_lt.1 hlt⟩

private theorem last_spec (spots : Nat → ℝ) (hi : ℝ) : ∀ n, lastIn spots hi n ≤ n ∧ (∀ i, lastIn spots hi n ≤ i → i < n → hi < spots i) ∧
    (∀ k, lastIn spots hi n = k + 1 → spots k ≤ hi) := by
  intro n
  induction n with
  | zero => exact ⟨Nat.le_refl _, fun i _ h => absurd h (Nat.not_lt_zero i), fun k h => by cases h⟩
  | succ n ih =>
    rw [lastIn]
    by_cases h : hi < spots n
    · rw [if_pos h]
      refine ⟨by omega, fun i h1 h2 => ?_, ih.2.2⟩
      rcases Nat.lt_or_eq_of_le (Nat.lt_succ_iff.1 h2) with h' | rfl
      · exact ih.2.1 i h1 h'
      · exact h
    · rw [if_neg h]
      exact ⟨Nat.le_refl _, fun i h1 h2 => by omega, fun k hk => by cases hk; exact not_lt.1 h⟩

private theorem setRange {f : Nat → ℝ} : ∀ (cnt a : Nat) (v : List ℝ) (i : Nat), a + cnt ≤ v.length →
    ((List.range' a cnt).foldl (fun v i => v.set i (f i)) v)[i]? = if a ≤ i ∧ i < a + cnt then some (f i) else v[i]? := by
  intro cnt
  induction cnt with
  | zero => intro a v i _; rw [if_neg (by omega)]; rfl
  | succ cnt ih =>
    intro a v i hl
    rw [List.range'_succ, List.foldl_cons, ih (a + 1) _ _ (by rw [List.length_set]; omega), List.getElem?_set]
    by_cases h1 : a = i
    · subst h1
      rw [if_neg (by omega), if_pos rfl, if_pos (by omega), if_pos (by omega)]
    · rw [if_neg h1]
      by_cases h2 : a + 1 ≤ i ∧ i < a + 1 + cnt
      · rw [if_pos h2, if_pos (by omega)]
      · rw [if_neg h2, if_neg (by omega)]

private theorem setRange_length {f : Nat → ℝ} : ∀ (is : List Nat) (v : List ℝ), (is.foldl (fun v i => v.set i (f i)) v).length = v.length := by
  intro is
  induction is with
  | nil => intro v; rfl
  | cons i is ih => intro v; rw [List.foldl_cons, ih, List.length_set]

private theorem copy_spec (src : Nat) (x : ℝ) : ∀ (is : List Nat) (v : List ℝ), src ∉ is → v[src]? = some x → (∀ i ∈ is, i < v.length) →
    ∃ w, copyFrom src is v = some w ∧ w.length = v.length ∧ ∀ i, w[i]? = if i ∈ is then some x else v[i]? := by
  intro is
  induction is with
  | nil => intro v _ _ _; exact ⟨v, rfl, rfl, fun i => by simp⟩
  | cons a is ih =>
    intro v hs hv hl
    rw [List.mem_cons, not_or] at hs
    obtain ⟨w, h1, h2, h3⟩ := ih (v.set a x) hs.2 (by rw [List.getElem?_set_ne (Ne.symm hs.1)]; exact hv)
      (fun i hi => by rw [List.length_set]; exact hl i (List.mem_cons_of_mem _ hi))
    refine ⟨w, by rw [copyFrom, hv]; exact h1, by rw [h2, List.length_set], fun i => ?_⟩
    rw [h3, List.getElem?_set]
    by_cases hi : i ∈ is
    · rw [if_pos hi, if_pos (List.mem_cons_of_mem _ hi)]
    · rw [if_neg hi]
      by_cases hia : a = i
      · subst hia
        rw [if_pos rfl, if_pos (hl a (List.mem_cons_self ..)), if_pos (List.mem_cons_self ..)]
      · rw [if_neg hia, if_neg]
        rintro h
        rcases List.mem_cons.1 h with h | h
        · exact hia h.symm
        · exact hi h

/-- C79, one maturity: when some spot lies between the bounds, the row is filled with the local volatility at the spots between the bounds, and with that of the nearest such spot
outside. -/
theorem C79_maturity (lo hi : ℝ) (n : Nat) (spots : Nat → ℝ) (hs : ∀ i j, i < j → j < n → spots i < spots j) (lv : ℝ → ℝ) (v : List ℝ) (hv : v.length = n)
    (hin : ∃ k, k < n ∧ lo ≤ spots k ∧ spots k ≤ hi) :
    ∃ w a b, calibMaturity lo hi n spots lv v = some w ∧ w.length = n ∧ a ≤ b ∧ b < n ∧ (∀ i, i < n → (lo ≤ spots i ∧ spots i ≤ hi ↔ a ≤ i ∧ i ≤ b)) ∧
      ∀ i, i < n → w[i]? = some (lv (spots (max a (min i b)))) := by
  obtain ⟨k, hkn, hk1, hk2⟩ := hin
  obtain ⟨-, f2, f3, f4⟩ := first_spec spots lo n 0 (fun i hi => absurd hi (Nat.not_lt_zero i))
  obtain ⟨l1, l2, l3⟩ := last_spec spots hi n
  unfold calibMaturity
  dsimp only
  generalize firstIn spots lo n 0 = il at *
  generalize lastIn spots hi n = ihs at *
  have hil : il ≤ k := by
    by_contra h
    exact absurd (f3 k (by omega)) (not_lt.2 hk1)
  have hih : k < ihs := by
    by_contra h
    exact absurd (l2 k (by omega) hkn) (not_lt.2 hk2)
  obtain ⟨b, rfl⟩ : ∃ b, ihs = b + 1 := ⟨ihs - 1, by omega⟩
  have hmono : ∀ i j, i ≤ j → j < n → spots i ≤ spots j := by
    intro i j hij hj
    rcases Nat.lt_or_eq_of_le hij with h | rfl
    · exact (hs i j h hj).le
    · exact le_refl _
  have hv1 := setRange (f := fun i => lv (spots i)) (b + 1 - il) il v
  have hlen1 := setRange_length (f := fun i => lv (spots i)) (List.range' il (b + 1 - il)) v
  generalize (List.range' il (b + 1 - il)).foldl (fun v i => v.set i (lv (spots i))) v = v1 at *
  obtain ⟨v2, c1, c2, c3⟩ := copy_spec il (lv (spots il)) (List.range il) v1 (by simp) (by rw [hv1 il (by omega), if_pos (by omega)])
    (fun i hi => by rw [List.mem_range] at hi; omega)
  have hb : v2[b]? = some (lv (spots b)) := by
    rw [c3, if_neg (by rw [List.mem_range]; omega), hv1 b (by omega), if_pos (by omega)]
  obtain ⟨v3, d1, d2, d3⟩ := copy_spec b (lv (spots b)) (List.range' (b + 1) (n - (b + 1))) v2 (by simp) hb
    (fun i hi => by rw [List.mem_range'_1] at hi; omega)
  refine ⟨v3, il, b, ?_, by omega, by omega, by omega, fun i hi => ?_, fun i hi => ?_⟩
  · rw [c1, Option.bind_some, if_neg (by omega), Nat.add_sub_cancel]
    exact d1
  · constructor
    · rintro ⟨h1, h2⟩
      constructor
      · by_contra h
        exact absurd (f3 i (by omega)) (not_lt.2 h1)
      · by_contra h
        exact absurd (l2 i (by omega) hi) (not_lt.2 h2)
    · rintro ⟨h1, h2⟩
      exact ⟨(f4 (by omega)).trans (hmono il i h1 hi), (hmono i b h2 (by omega)).trans (l3 b rfl)⟩
  · rw [d3]
    by_cases h1 : b < i
    · rw [if_pos (by rw [List.mem_range'_1]; omega), Nat.min_eq_right (by omega), Nat.max_eq_right (by omega)]
    · rw [if_neg (by rw [List.mem_range'_1]; omega), c3, Nat.min_eq_left (by omega)]
      by_cases h2 : i < il
      · rw [if_pos (by rw [List.mem_range]; exact h2), Nat.max_eq_left (by omega)]
      · rw [if_neg (by rw [List.mem_range]; exact h2), hv1 i (by omega), if_pos (by omega), Nat.max_eq_right (by omega)]

example : ∃ (w : List ℝ) (a b : Nat), calibMaturity 75 125 3 (fun i => 50 + 50 * i) (fun s => s / 100) [0, 0, 0] = some w ∧ w.length = 3 ∧ a ≤ b ∧ b < 3 ∧
    (∀ i : Nat, i < 3 → ((75 : ℝ) ≤ 50 + 50 * i ∧ (50 : ℝ) + 50 * i ≤ 125 ↔ a ≤ i ∧ i ≤ b)) ∧ ∀ i : Nat, i < 3 → w[i]? = some ((50 + 50 * ((max a (min i b) : Nat) : ℝ)) / 100) :=
  C79_maturity 75 125 3 (fun i => 50 + 50 * i) (fun i j h _ => by
    have : (i : ℝ) < j := by exact_mod_cast h
    show (50 : ℝ) + 50 * i < 50 + 50 * j
    linarith) (fun s => s / 100) [0, 0, 0] rfl ⟨1, by decide, by norm_num, by norm_num⟩

/-- C79 fails when the range falls between two neighbouring spots: no local volatility is computed, and every entry of the row gets what was there before for the first spot above
the range. -/
theorem C79_gap_violated (lo hi : ℝ) (n k : Nat) (spots : Nat → ℝ) (hk : k + 1 < n) (h1 : ∀ i, i ≤ k → spots i < lo) (h2 : ∀ i, k < i → i < n → hi < spots i) (hlh : lo ≤ hi)
    (lv : ℝ → ℝ) (v : List ℝ) (hv : v.length = n) (x : ℝ) (hx : v[k + 1]? = some x) :
    ∃ w, calibMaturity lo hi n spots lv v = some w ∧ (∀ i, i ≤ k + 1 → w[i]? = some x) ∧ ∀ i, k < i → i < n → w[i]? = some x := by
  obtain ⟨-, f2, f3, f4⟩ := first_spec spots lo n 0 (fun i hi => absurd hi (Nat.not_lt_zero i))
  obtain ⟨l1, l2, l3⟩ := last_spec spots hi n
  unfold calibMaturity
  dsimp only
  have hil : firstIn spots lo n 0 = k + 1 := by
    rcases Nat.lt_trichotomy (firstIn spots lo n 0) (k + 1) with h | h | h
    · exact absurd (h1 _ (by omega)) (not_lt.2 (f4 (by omega)))
    · exact h
    · have := f3 (k + 1) h
      linarith [h2 (k + 1) (by omega) hk]
  have hih : lastIn spots hi n = k + 1 := by
    rcases Nat.lt_trichotomy (lastIn spots hi n) (k + 1) with h | h | h
    · have := l2 k (by omega) (by omega)
      linarith [h1 k (Nat.le_refl _)]
    · exact h
    · obtain ⟨b, hb⟩ : ∃ b, lastIn spots hi n = b + 1 := ⟨lastIn spots hi n - 1, by omega⟩
      have := l3 b hb
      linarith [h2 b (by omega) (by omega)]
  rw [hil, hih, Nat.sub_self]
  show ∃ w, ((copyFrom (k + 1) (List.range (k + 1)) v).bind _) = some w ∧ _
  obtain ⟨v2, c1, c2, c3⟩ := copy_spec (k + 1) x (List.range (k + 1)) v (by simp) hx (fun i hi => by rw [List.mem_range] at hi; omega)
  have hb : v2[k]? = some x := by rw [c3, if_pos (by rw [List.mem_range]; omega)]
  obtain ⟨v3, d1, d2, d3⟩ := copy_spec k x (List.range' (k + 1) (n - (k + 1))) v2 (by simp) hb (fun i hi => by rw [List.mem_range'_1] at hi; omega)
  refine ⟨v3, ?_, fun i hi => ?_, fun i hi hin => ?_⟩
  · rw [c1, Option.bind_some, if_neg (by omega)]
    exact d1
  · rw [d3]
    by_cases h : i = k + 1
    · rw [if_pos (by rw [List.mem_range'_1]; omega)]
    · rw [if_neg (by rw [List.mem_range'_1]; omega), c3, if_pos (by rw [List.mem_range]; omega)]
  · rw [d3, if_pos (by rw [List.mem_range'_1]; omega)]

/-- Spots 50 and 150, and a range about 100. -/
example : ∃ w, calibMaturity 90 110 2 (fun i => 50 + 100 * i) (fun _ => 0.2) [0, 0] = some w ∧ (∀ i, i ≤ 0 + 1 → w[i]? = some 0) ∧ ∀ i, 0 < i → i < 2 → w[i]? = some 0 :=
  C79_gap_violated 90 110 2 0 _ (by decide) (fun i hi => by obtain rfl : i = 0 := by omega
                                                            norm_num)
    (fun i h1 h2 => by obtain rfl : i = 1 := by omega
                       norm_num) (by norm_num) _ [0, 0] rfl 0 rfl

/-- C79 fails when all spots lie on one side of the range: an entry outside the row is read. -/
theorem C79_outside_violated (lo hi : ℝ) (n : Nat) (hn : 0 < n) (spots : Nat → ℝ) (lv : ℝ → ℝ) (v : List ℝ) (hv : v.length = n)
    (h : (∀ i, i < n → spots i < lo) ∨ (∀ i, i < n → hi < spots i)) : calibMaturity lo hi n spots lv v = none := by
  obtain ⟨-, f2, f3, f4⟩ := first_spec spots lo n 0 (fun i hi => absurd hi (Nat.not_lt_zero i))
  obtain ⟨l1, l2, l3⟩ := last_spec spots hi n
  unfold calibMaturity
  dsimp only
  rcases h with h | h
  · have hil : firstIn spots lo n 0 = n := by
      by_contra hne
      exact absurd (h _ (by omega)) (not_lt.2 (f4 (by omega)))
    have : ∀ u : List ℝ, u.length = n → copyFrom n (List.range n) u = none := by
      intro u hu
      obtain ⟨m, rfl⟩ : ∃ m, n = m + 1 := ⟨n - 1, by omega⟩
      rw [List.range_succ_eq_map, copyFrom, List.getElem?_eq_none (by omega)]
    rw [hil, this _ (by rw [setRange_length]; exact hv)]
    rfl
  · have hih : lastIn spots hi n = 0 := by
      by_contra hne
      obtain ⟨b, hb⟩ : ∃ b, lastIn spots hi n = b + 1 := ⟨lastIn spots hi n - 1, by omega⟩
      exact absurd (h b (by omega)) (not_lt.2 (l3 b hb))
    rw [hih]
    cases copyFrom (firstIn spots lo n 0) (List.range (firstIn spots lo n 0)) _ with
    | none => rfl
    | some u => rw [Option.bind_some, if_pos rfl, if_neg (by omega)]

private theorem mapM_some' {A B : Type} (f : A → Option B) (g : A → B) : ∀ l : List A, (∀ a ∈ l, f a = some (g a)) → l.mapM f = some (l.map g) := by
  intro l
  induction l with
  | nil => intro _; rfl
  | cons a l ih =>
    intro h
    rw [List.mapM_cons, h a (List.mem_cons_self ..), ih fun b hb => h b (List.mem_cons_of_mem _ hb)]
    rfl

/-- C79, the calibration: when at every time some spot of the grid lies within two and a half deviations, the matrix has a row for every spot and a column for every time, with
the local volatility at that time of the nearest spot in range. -/
theorem C79_calibration (spot : ℝ) (nS nT : Nat) (spots times : Nat → ℝ) (hs : ∀ i j, i < j → j < nS → spots i < spots j) (call : ℝ → ℝ) (lv : ℝ → ℝ → ℝ)
    (hin : ∀ j, j < nT → ∃ k, k < nS ∧ |spots k - spot| ≤ 2.5 * (call (times j) * 2.506628274631)) :
    ∃ m, calib spot nS nT spots times call lv = some m ∧ m.length = nS ∧ ∀ i, i < nS → ∃ row, m[i]? = some row ∧ row.length = nT ∧
      ∀ j, j < nT → ∃ k, k < nS ∧ row[j]? = some (lv (times j) (spots k)) ∧ |spots k - spot| ≤ 2.5 * (call (times j) * 2.506628274631) ∧
        ∀ l, l < nS → |spots l - spot| ≤ 2.5 * (call (times j) * 2.506628274631) → |spots k - spots i| ≤ |spots l - spots i| := by
  have hrow : ∀ j, j < nT → ∃ w, calibMaturity (spot - 2.5 * (call (times j) * 2.506628274631)) (spot + 2.5 * (call (times j) * 2.506628274631)) nS spots (lv (times j)) (List.replicate nS 0) = some w ∧
      w.length = nS ∧ ∀ i, i < nS → ∃ k, k < nS ∧ w[i]? = some (lv (times j) (spots k)) ∧ |spots k - spot| ≤ 2.5 * (call (times j) * 2.506628274631) ∧
        ∀ l, l < nS → |spots l - spot| ≤ 2.5 * (call (times j) * 2.506628274631) → |spots k - spots i| ≤ |spots l - spots i| := by
    intro j hj
    obtain ⟨k, hk, hk2⟩ := hin j hj
    rw [abs_le] at hk2
    obtain ⟨w, a, b, h1, h2, h3, h4, h5, h6⟩ := C79_maturity (spot - 2.5 * (call (times j) * 2.506628274631)) (spot + 2.5 * (call (times j) * 2.506628274631)) nS spots hs (lv (times j))
      (List.replicate nS 0) (by simp) ⟨k, hk, by linarith [hk2.1], by linarith [hk2.2]⟩
    have hmono : ∀ i j, i ≤ j → j < nS → spots i ≤ spots j := by
      intro i j hij hj
      rcases Nat.lt_or_eq_of_le hij with h | rfl
      · exact (hs i j h hj).le
      · exact le_refl _
    refine ⟨w, h1, h2, fun i hi => ⟨max a (min i b), by omega, h6 i hi, ?_, ?_⟩⟩
    · have := (h5 (max a (min i b)) (by omega)).2 ⟨by omega, by omega⟩
      rw [abs_le]
      constructor <;> linarith [this.1, this.2]
    · intro l hl hl2
      rw [abs_le] at hl2
      have hab := (h5 l hl).1 ⟨by linarith [hl2.1], by linarith [hl2.2]⟩
      rcases Nat.lt_or_ge i a with h | h
      · rw [Nat.min_eq_left (by omega), Nat.max_eq_left (by omega)]
        have e1 := hmono i a (by omega) (by omega)
        have e2 := hmono a l hab.1 hl
        rw [abs_of_nonneg (by linarith), abs_of_nonneg (by linarith)]
        linarith
      · rcases Nat.lt_or_ge b i with h' | h'
        · rw [Nat.min_eq_right (by omega), Nat.max_eq_right (by omega)]
          have e1 := hmono b i (by omega) hi
          have e2 := hmono l b hab.2 (by omega)
          rw [abs_of_nonpos (by linarith), abs_of_nonpos (by linarith)]
          linarith
        · rw [Nat.min_eq_left (by omega), Nat.max_eq_right (by omega), sub_self, abs_zero]
          exact abs_nonneg _
  choose! w hw using hrow
  have hm : (List.range nT).mapM (fun j =>
      calibMaturity (spot - 2.5 * (call (times j) * 2.506628274631)) (spot + 2.5 * (call (times j) * 2.506628274631)) nS spots (lv (times j)) (List.replicate nS 0)) = some ((List.range nT).map w) :=
    mapM_some' _ w _ fun j hj => (hw j (List.mem_range.1 hj)).1
  refine ⟨_, by unfold calib stdOf; rw [hm]; rfl, by simp, fun i hi => ⟨((List.range nT).map w).map fun r => r.getD i 0, ?_, by simp, fun j hj => ?_⟩⟩
  · rw [List.getElem?_map, List.getElem?_range hi]; rfl
  · obtain ⟨k, k1, k2, k3, k4⟩ := (hw j hj).2.2 i hi
    refine ⟨k, k1, ?_, k3, k4⟩
    rw [List.getElem?_map, List.getElem?_map, List.getElem?_range hj]
    show some ((w j).getD i 0) = _
    rw [List.getD_eq_getElem?_getD, k2]
    rfl

/-- Spots 50, 100 and 150 with a price that gives a deviation of at most 20. -/
example (lv : ℝ → ℝ → ℝ) : ∃ m, calib 100 3 2 (fun i => 50 + 50 * i) (fun j => j + 1) (fun _ => 8) lv = some m ∧ m.length = 3 := by
  obtain ⟨m, h1, h2, -⟩ := C79_calibration 100 3 2 (fun i => 50 + 50 * i) (fun j => j + 1) (fun i j h _ => by
    have : (i : ℝ) < j := by exact_mod_cast h
    show (50 : ℝ) + 50 * i < 50 + 50 * j
    linarith) (fun _ => 8) lv (fun j _ => ⟨1, by decide, by
      have h0 : |(50 : ℝ) + 50 * ((1 : Nat) : ℝ) - 100| = 0 := by norm_num
      rw [h0]
      positivity⟩)
  exact ⟨m, h1, h2⟩

/-! ## The view of the risk -/

private theorem linear_zero (eps : ℝ) (n : Nat) (hn : 0 < n) (x : Nat → ℝ) (x0 : ℝ) : Interp.linear eps n x (fun _ => 0) x0 = some 0 := by
  unfold Interp.linear
  dsimp only
  split
  · rw [if_neg (by omega)]
  · split
    · rfl
    · simp

/-- C79, a fresh view: without a bump, and without a view, no spread is added, so the price of a call is that of the surface. -/
theorem C79_fresh_view (eps : ℝ) (nK nM : Nat) (hK : 0 < nK) (hM : 0 < nM) (strikes mats : Nat → ℝ) (spot : ℝ) (iv : ℝ → ℝ → ℝ) (strike mat : ℝ) :
    (RiskView.new nK nM strikes mats).spread eps strike mat = some 0 ∧ RiskView.empty.spread eps strike mat = some 0 ∧
    call eps spot iv (some (RiskView.new nK nM strikes mats)) strike mat = blackScholes spot strike (iv strike mat) mat ∧
    call eps spot iv (some RiskView.empty) strike mat = blackScholes spot strike (iv strike mat) mat ∧
    call eps spot iv none strike mat = blackScholes spot strike (iv strike mat) mat := by
  have h : (RiskView.new nK nM strikes mats).spread eps strike mat = some 0 := by
    show (if false = true then _ else Interp.linear2 eps nK nM strikes mats (fun _ _ => 0) strike mat) = some 0
    rw [if_neg (by decide)]
    unfold Interp.linear2
    dsimp only
    split
    · rw [if_neg (by omega)]; exact linear_zero eps nM hM mats mat
    · split
      · exact linear_zero eps nM hM mats mat
      · rw [linear_zero eps nM hM mats mat]; simp
  refine ⟨h, rfl, ?_, ?_, ?_⟩
  · show Option.bind ((RiskView.new nK nM strikes mats).spread eps strike mat) _ = _
    rw [h, Option.bind_some, add_zero]
  · show Option.bind (some 0) _ = _
    rw [Option.bind_some, add_zero]
  · show Option.bind (some 0) _ = _
    rw [Option.bind_some, add_zero]

/-- C79 fails for a view with no strikes, or with no maturities: asking for a spread reads outside the empty vector. -/
theorem C79_no_nodes_violated (eps : ℝ) (nK nM : Nat) (h : nK = 0 ∨ nM = 0) (strikes mats : Nat → ℝ) (strike mat : ℝ) :
    (RiskView.new nK nM strikes mats).spread eps strike mat = none := by
  show (if false = true then _ else Interp.linear2 eps nK nM strikes mats (fun _ _ => 0) strike mat) = none
  rw [if_neg (by decide)]
  rcases h with rfl | rfl
  · rfl
  · have hl : ∀ f, Interp.linear eps 0 mats f mat = none := fun f => rfl
    unfold Interp.linear2
    dsimp only
    rw [hl]
    split
    · split <;> rfl
    · split <;> rfl

/-- C79, a bump: a bump of a fresh view is the spread at its strike and maturity, and there is no spread at the other nodes. -/
theorem C79_bump {eps : ℝ} (heps : 0 < eps) (nK nM : Nat) (strikes mats : Nat → ℝ) (hs : ∀ i j, i < j → j < nK → strikes i < strikes j)
    (hm : ∀ i j, i < j → j < nM → mats i < mats j) (i j : Nat) (hi : i < nK) (hj : j < nM) (b : ℝ) :
    ∃ r, (RiskView.new nK nM strikes mats).bump i j b = some r ∧
      ∀ k l, k < nK → l < nM → r.spread eps (strikes k) (mats l) = some (if k = i ∧ l = j then b else 0) := by
  refine ⟨_, if_pos ⟨hi, hj⟩, fun k l hk hl => ?_⟩
  show (if false = true then _ else Interp.linear2 eps nK nM strikes mats (fun a c => if a = i ∧ c = j then 0 + b else 0) (strikes k) (mats l)) = _
  rw [if_neg (by decide)]
  have hmon : ∀ (n : Nat) (x : Nat → ℝ), (∀ i j, i < j → j < n → x i < x j) → Interp.isMonotonic x n = true := by
    intro n x hx
    unfold Interp.isMonotonic
    rw [List.all_eq_true]
    intro a ha
    rw [List.mem_range] at ha
    exact decide_eq_true (hx a (a + 1) (by omega) (by omega)).le
  have := C48_nodes2 heps (n := nK) (m := nM) (r := nK) (c := nM) (x := strikes) (y := mats) (f := fun a c => if a = i ∧ c = j then 0 + b else 0)
    (p := ⟨nK, nM, strikes, mats, fun a c => if a = i ∧ c = j then 0 + b else 0⟩) (by
      unfold Interp.newLinear2
      rw [if_pos ⟨⟨rfl, rfl⟩, hmon _ _ hs, hmon _ _ hm⟩]) k l hk hl (fun a h1 h2 => hs k a h1 h2) (fun a h1 => hm a l h1 hl)
  refine this.trans ?_
  rw [zero_add]

example : ∃ r, (RiskView.new 3 2 (fun i => 80 + 20 * i) (fun j => j + 1)).bump 1 0 0.01 = some r ∧
    ∀ k l : Nat, k < 3 → l < 2 → r.spread 1e-9 (80 + 20 * k) (l + 1) = some (if k = 1 ∧ l = 0 then 0.01 else 0) :=
  C79_bump (by norm_num) 3 2 (fun i => 80 + 20 * i) (fun j => j + 1) (fun i j h _ => by
    have : (i : ℝ) < j := by exact_mod_cast h
    show (80 : ℝ) + 20 * i < 80 + 20 * j
    linarith) (fun i j h _ => by
    have : (i : ℝ) < j := by exact_mod_cast h
    show (i : ℝ) + 1 < j + 1
    linarith) 1 0 (by decide) (by decide) 0.01

/-! ## Local volatility -/

/-- C79, differences: for prices quadratic in the strike and linear in time the differences are the derivatives. -/
theorem C79_differences (a b g u v strike mat : ℝ) (hk : strike ≠ 0) (hm : mat ≠ 0) :
    differences (fun k t => (a + b * k + g * k ^ 2) * (u + v * t)) strike mat =
      ((a + b * strike + g * strike ^ 2) * (u + v * mat), (a + b * strike + g * strike ^ 2) * v, (b + 2 * g * strike) * (u + v * mat), 2 * g * (u + v * mat)) := by
  unfold differences
  dsimp only
  refine Prod.ext rfl (Prod.ext ?_ (Prod.ext ?_ ?_))
  · dsimp only; field_simp; ring
  · dsimp only; field_simp; ring
  · dsimp only; field_simp; ring

/-- C79, prices: the price of a call depends on the volatility and the maturity through the volatility times the root of the maturity only. -/
theorem C79_total_variance (spot strike vol mat : ℝ) : blackScholes spot strike vol mat = blackScholes spot strike (vol * Real.sqrt mat) 1 := by
  unfold blackScholes
  rw [Real.sqrt_one, mul_one]

/-- The forward equation of Dupire for a call of price `c`, with slope `ct` in time and slope `ck` and curvature `ckk` in the strike. -/
def forwardEquation (r q sigma strike c ct ck ckk : ℝ) : Prop := ct = sigma ^ 2 * strike ^ 2 * ckk / 2 - (r - q) * strike * ck - q * c

/-- C79, local volatility: prices with differences that meet the forward equation of Dupire give back its volatility, when the rate is that of the dividends. -/
theorem C79_local_vol_partial (q sigma : ℝ) (hs : 0 ≤ sigma) (c : ℝ → ℝ → ℝ) (strike mat : ℝ) (hk : 0 < strike) (hckk : 0 < (differences c strike mat).2.2.2)
    (heq : forwardEquation q q sigma strike (differences c strike mat).1 (differences c strike mat).2.1 (differences c strike mat).2.2.1 (differences c strike mat).2.2.2) :
    localVol q q c strike mat = some sigma := by
  unfold localVol
  dsimp only
  unfold forwardEquation at heq
  generalize differences c strike mat = d at *
  have hw : 2 * (d.2.1 + q * d.1 + (q - q) * d.2.2.1) / d.2.2.2 = (sigma * strike) ^ 2 := by
    rw [heq]
    field_simp
    ring
  rw [hw, if_neg (not_lt.2 (sq_nonneg _)), Real.sqrt_sq (mul_nonneg hs hk.le), mul_div_assoc, div_self hk.ne', mul_one]

/-- The price `K² (1 + t / 3)` has the local volatility of one half at the time 1. -/
example : localVol 0 0 (fun k t => k ^ 2 * (1 + t / 3)) 2 1 = some (1 / 2) :=
  C79_local_vol_partial 0 (1 / 2) (by norm_num) _ 2 1 (by norm_num) (by norm_num [differences]) (by norm_num [forwardEquation, differences])

/-- C79 fails for another rate: the slope in the strike is not multiplied by the strike, so the volatility is the one of the forward equation only for a strike of one or a flat price. -/
theorem C79_local_vol_violated (r q sigma : ℝ) (hs : 0 ≤ sigma) (c : ℝ → ℝ → ℝ) (strike mat : ℝ) (hk : 0 < strike) (hckk : 0 < (differences c strike mat).2.2.2)
    (heq : forwardEquation r q sigma strike (differences c strike mat).1 (differences c strike mat).2.1 (differences c strike mat).2.2.1 (differences c strike mat).2.2.2) :
    localVol r q c strike mat = some sigma ↔ (r - q) * (strike - 1) * (differences c strike mat).2.2.1 = 0 := by
  unfold localVol
  dsimp only
  unfold forwardEquation at heq
  generalize differences c strike mat = d at *
  have hw : 2 * (d.2.1 + q * d.1 + (r - q) * d.2.2.1) / d.2.2.2 = (sigma * strike) ^ 2 - 2 * ((r - q) * (strike - 1) * d.2.2.1) / d.2.2.2 := by
    rw [heq]
    field_simp
    ring
  have hroot : Real.sqrt ((sigma * strike) ^ 2) / strike = sigma := by
    rw [Real.sqrt_sq (mul_nonneg hs hk.le), mul_div_assoc, div_self hk.ne', mul_one]
  rw [hw]
  constructor
  · intro h
    split at h
    · cases h
    · rename_i hneg
      have h' := Option.some.inj h
      have h2 : Real.sqrt ((sigma * strike) ^ 2 - 2 * ((r - q) * (strike - 1) * d.2.2.1) / d.2.2.2) = sigma * strike := by
        rw [div_eq_iff hk.ne'] at h'
        exact h'
      have h3 := Real.sq_sqrt (not_lt.1 hneg)
      rw [h2] at h3
      have h4 : 2 * ((r - q) * (strike - 1) * d.2.2.1) / d.2.2.2 = 0 := by linarith
      rcases div_eq_zero_iff.1 h4 with h5 | h5
      · linarith
      · exact absurd h5 hckk.ne'
  · intro h
    rw [h, mul_zero, zero_div, sub_zero, if_neg (not_lt.2 (sq_nonneg _)), hroot]

/-- The price `K² (1 + t / 19)` has the local volatility of one half at the time 1 for a rate of 10%, and does not get it. -/
example : localVol 0.1 0 (fun k t => k ^ 2 * (1 + t / 19)) 2 1 ≠ some (1 / 2) := by
  intro h
  have := (C79_local_vol_violated 0.1 0 (1 / 2) (by norm_num) (fun k t => k ^ 2 * (1 + t / 19)) 2 1 (by norm_num) (by norm_num [differences])
    (by norm_num [forwardEquation, differences])).1 h
  norm_num [differences] at this

/-! ## Merton -/

/-- The probability of `n` jumps of a Poisson law. -/
noncomputable def poisson (x : ℝ) (n : Nat) : ℝ := Real.exp (-x) * x ^ n / n.factorial

private theorem merton_loop (price : Nat → ℝ) (x : ℝ) : ∀ left n acc, n + left ≤ 12 →
    mertonLoop price x left n n.factorial (x ^ n) acc = acc + ∑ k ∈ Finset.range left, poisson x (n + k) * price (n + k) := by
  intro left
  induction left with
  | zero => intro n acc _; simp [mertonLoop]
  | succ left ih =>
    intro n acc hn
    rw [mertonLoop]
    have hf : n.factorial * (n + 1) % 2 ^ 32 = (n + 1).factorial := by
      rw [Nat.mul_comm, ← Nat.factorial_succ]
      apply Nat.mod_eq_of_lt
      exact lt_of_le_of_lt (Nat.factorial_le (show n + 1 ≤ 12 by omega)) (by decide)
    rw [hf, ← pow_succ, ih (n + 1) _ (by omega), Finset.sum_range_succ', add_assoc]
    congr 1
    rw [add_comm]
    congr 1
    refine Finset.sum_congr rfl fun k _ => ?_
    rw [show n + 1 + k = n + (k + 1) by omega]

/-- C79, jumps: the price is the mixture of the prices for no jump up to nine, each with the probability of its number of jumps. -/
theorem C79_merton (bs : ℝ → ℝ → ℝ → ℝ → ℝ) (spot strike vol mat intens meanJmp stdJmp : ℝ) :
    merton bs spot strike vol mat intens meanJmp stdJmp = ∑ n ∈ Finset.range 10, poisson (intens * mat) n *
      bs (spot * Real.exp (n * (meanJmp + stdJmp ^ 2 / 2) - intens * mat * (Real.exp (meanJmp + stdJmp ^ 2 / 2) - 1))) strike (Real.sqrt (vol ^ 2 + n * stdJmp ^ 2 / mat)) mat := by
  unfold merton
  have := merton_loop (fun n => bs (mertonSpot spot mat intens (meanJmp + 0.5 * (stdJmp * stdJmp)) n) strike (mertonVol vol mat stdJmp n) mat) (intens * mat) 10 0 0 (by decide)
  rw [Nat.factorial_zero, pow_zero] at this
  rw [this, zero_add]
  refine Finset.sum_congr rfl fun n _ => ?_
  rw [Nat.zero_add]
  unfold mertonSpot mertonVol
  have e : meanJmp + 0.5 * (stdJmp * stdJmp) = meanJmp + stdJmp ^ 2 / 2 := by ring
  rw [e, show vol * vol = vol ^ 2 by ring, show stdJmp * stdJmp = stdJmp ^ 2 by ring,
    show intens * (Real.exp (meanJmp + stdJmp ^ 2 / 2) - 1) * mat = intens * mat * (Real.exp (meanJmp + stdJmp ^ 2 / 2) - 1) by ring]

/-- C79, without jumps the price is that of the diffusion. -/
theorem C79_no_jumps (bs : ℝ → ℝ → ℝ → ℝ → ℝ) (spot strike vol mat meanJmp stdJmp : ℝ) (hv : 0 ≤ vol) :
    merton bs spot strike vol mat 0 meanJmp stdJmp = bs spot strike vol mat := by
  rw [C79_merton, Finset.sum_range_succ', Finset.sum_eq_zero]
  · simp [poisson, Real.sqrt_sq hv]
  · intro n _
    simp [poisson]

/-- C79 fails in the total: the numbers of jumps from ten on are dropped, so the mixture of the forwards is below the spot and the price of a call of strike near zero is below its
value. -/
theorem C79_forward_violated (spot strike vol mat intens meanJmp stdJmp : ℝ) (hspot : 0 < spot) (hi : 0 < intens * mat) :
    merton (fun s _ _ _ => s) spot strike vol mat intens meanJmp stdJmp < spot ∧ ∑ n ∈ Finset.range 10, poisson (intens * mat) n < 1 := by
  have key : ∀ x : ℝ, 0 < x → ∑ n ∈ Finset.range 10, x ^ n / n.factorial < Real.exp x := by
    intro x hx
    have h := Real.sum_le_exp_of_nonneg hx.le 11
    rw [Finset.sum_range_succ] at h
    have : 0 < x ^ 10 / ((Nat.factorial 10 : Nat) : ℝ) := by positivity
    linarith
  constructor
  · rw [C79_merton]
    set m := meanJmp + stdJmp ^ 2 / 2 with hm
    set x := intens * mat with hx
    have e : ∀ n : Nat, poisson x n * (spot * Real.exp (n * m - x * (Real.exp m - 1))) = spot * Real.exp (-(x * Real.exp m)) * ((x * Real.exp m) ^ n / n.factorial) := by
      intro n
      have h1 : Real.exp (n * m - x * (Real.exp m - 1)) = Real.exp m ^ n * (Real.exp (-(x * Real.exp m)) * Real.exp x) := by
        rw [← Real.exp_nat_mul, ← Real.exp_add, ← Real.exp_add]
        congr 1
        ring
      have h2 : Real.exp (-x) * Real.exp x = 1 := by rw [← Real.exp_add, neg_add_cancel, Real.exp_zero]
      unfold poisson
      rw [h1, mul_pow]
      linear_combination (spot * Real.exp (-(x * Real.exp m)) * (x ^ n * Real.exp m ^ n / n.factorial)) * h2
    rw [Finset.sum_congr rfl fun n _ => e n, ← Finset.mul_sum]
    have hpos : 0 < x * Real.exp m := mul_pos hi (Real.exp_pos _)
    calc spot * Real.exp (-(x * Real.exp m)) * _ < spot * Real.exp (-(x * Real.exp m)) * Real.exp (x * Real.exp m) :=
          mul_lt_mul_of_pos_left (key _ hpos) (mul_pos hspot (Real.exp_pos _))
      _ = spot := by rw [mul_assoc, ← Real.exp_add, neg_add_cancel, Real.exp_zero, mul_one]
  · have e : ∀ n : Nat, poisson (intens * mat) n = Real.exp (-(intens * mat)) * ((intens * mat) ^ n / n.factorial) := fun n => by unfold poisson; ring
    rw [Finset.sum_congr rfl fun n _ => e n, ← Finset.mul_sum]
    calc _ < Real.exp (-(intens * mat)) * Real.exp (intens * mat) := mul_lt_mul_of_pos_left (key _ hi) (Real.exp_pos _)
      _ = 1 := by rw [← Real.exp_add, neg_add_cancel, Real.exp_zero]

example : merton (fun s _ _ _ => s) 100 1 0.2 1 5 0 0.1 < 100 := (C79_forward_violated 100 1 0.2 1 5 0 0.1 (by norm_num) (by norm_num)).1

end Dal
