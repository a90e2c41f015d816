import Verif.Time.HolidaysModel
import Verif.Time.DateProps

/-! Helper lemmas for holiday calendars. -/

namespace Dal.Hol
open Dal.Date

theorem weekEnd_iff (s : Nat) : weekEnd s = true ↔ (s + 3) % 7 = 0 ∨ (s + 3) % 7 = 6 := by
  unfold weekEnd isWeekEnd
  rw [dayOfWeek_eq, Int.tmod_eq_emod_of_nonneg (by omega)]
  simp only [beq_iff_eq]; omega

/-! ### sorted lists -/

/-- Strictly increasing. -/
abbrev SSorted (l : List Nat) : Prop := l.Pairwise (· < ·)

theorem isMonotonic_iff (l : List Nat) : isMonotonic l = true ↔ SSorted l := by
  induction l with
  | nil => simp [isMonotonic]
  | cons x r ih =>
    cases r with
    | nil => simp [isMonotonic]
    | cons y r =>
      rw [isMonotonic, Bool.and_eq_true, ih]
      simp only [decide_eq_true_eq, List.pairwise_cons, List.mem_cons]
      constructor
      · rintro ⟨h1, h2, h3⟩
        exact ⟨fun a ha => by rcases ha with rfl | ha; exacts [h1, lt_trans h1 (h2 a ha)], h2, h3⟩
      · rintro ⟨h1, h2, h3⟩
        exact ⟨h1 y (Or.inl rfl), h2, h3⟩

theorem mem_insertSorted (a x : Nat) (l : List Nat) : a ∈ insertSorted x l ↔ a = x ∨ a ∈ l := by
  induction l with
  | nil => simp [insertSorted]
  | cons y ys ih =>
    unfold insertSorted
    split
    · simp
    · simp only [List.mem_cons, ih]; tauto

theorem mem_sort (a : Nat) (l : List Nat) : a ∈ sort l ↔ a ∈ l := by
  induction l with
  | nil => simp [sort]
  | cons x xs ih => simp [sort, mem_insertSorted, ih]

theorem insertSorted_sorted (x : Nat) (l : List Nat) (h : l.Pairwise (· ≤ ·)) :
    (insertSorted x l).Pairwise (· ≤ ·) := by
  induction l with
  | nil => simp [insertSorted]
  | cons y ys ih =>
    rw [List.pairwise_cons] at h
    unfold insertSorted
    split
    · rename_i hxy
      refine List.pairwise_cons.2 ⟨?_, List.pairwise_cons.2 h⟩
      intro a ha
      rcases List.mem_cons.1 ha with rfl | ha
      · exact hxy
      · exact le_trans hxy (h.1 a ha)
    · refine List.pairwise_cons.2 ⟨?_, ih h.2⟩
      intro a ha
      rcases (mem_insertSorted a x ys).1 ha with rfl | ha
      · omega
      · exact h.1 a ha

theorem sort_sorted (l : List Nat) : (sort l).Pairwise (· ≤ ·) := by
  induction l with
  | nil => simp [sort]
  | cons x xs ih => exact insertSorted_sorted x _ ih

theorem mem_dedupAdj (a : Nat) (l : List Nat) : a ∈ dedupAdj l ↔ a ∈ l := by
  induction l using dedupAdj.induct with
  | case1 => simp [dedupAdj]
  | case2 => simp [dedupAdj]
  | case3 x r ih => rw [dedupAdj, if_pos rfl, ih]; simp
  | case4 x y r h ih => rw [dedupAdj, if_neg h, List.mem_cons, ih]; simp

theorem dedupAdj_sorted (l : List Nat) (h : l.Pairwise (· ≤ ·)) : SSorted (dedupAdj l) := by
  induction l using dedupAdj.induct with
  | case1 => simp [dedupAdj]
  | case2 => simp [dedupAdj]
  | case3 x r ih =>
    rw [dedupAdj, if_pos rfl]; exact ih (List.pairwise_cons.1 h).2
  | case4 x y r hne ih =>
    rw [dedupAdj, if_neg hne]
    rw [List.pairwise_cons] at h
    refine List.pairwise_cons.2 ⟨?_, ih h.2⟩
    intro a ha
    rw [mem_dedupAdj] at ha
    have h1 := h.1 y (by simp)
    have h2 := List.pairwise_cons.1 h.2
    rcases List.mem_cons.1 ha with rfl | ha
    · omega
    · have := h2.1 a ha; omega

theorem unique_sorted (l : List Nat) : SSorted (unique l) := dedupAdj_sorted _ (sort_sorted l)
theorem mem_unique (a : Nat) (l : List Nat) : a ∈ unique l ↔ a ∈ l := by
  rw [unique, mem_dedupAdj, mem_sort]

/-! ### lower bounds -/

theorem lowerBound_cons (y : Nat) (l : List Nat) (x : Nat) :
    lowerBound (y :: l) x = if y < x then lowerBound l x + 1 else 0 := by
  unfold lowerBound
  rw [List.takeWhile_cons]
  by_cases h : y < x <;> simp [h]

theorem lowerBound_eq_zero {l : List Nat} {x : Nat} (h : ∀ a ∈ l, x ≤ a) : lowerBound l x = 0 := by
  cases l with
  | nil => rfl
  | cons y r => rw [lowerBound_cons, if_neg (by have := h y (by simp); omega)]

theorem lowerBound_succ {l : List Nat} (h : SSorted l) (x : Nat) :
    lowerBound l (x + 1) = lowerBound l x + (if x ∈ l then 1 else 0) := by
  induction l with
  | nil => simp [lowerBound]
  | cons y r ih =>
    rw [SSorted, List.pairwise_cons] at h
    rw [lowerBound_cons, lowerBound_cons]
    rcases Nat.lt_trichotomy y x with hlt | heq | hgt
    · rw [if_pos (by omega), if_pos hlt, ih h.2]
      have : (x ∈ y :: r) ↔ x ∈ r := by simp; omega
      simp only [this]; omega
    · subst heq
      rw [if_pos (by omega), if_neg (by omega), lowerBound_eq_zero (fun a ha => h.1 a ha)]
      simp
    · rw [if_neg (by omega), if_neg (by omega), if_neg]
      intro hm
      rcases List.mem_cons.1 hm with rfl | hm
      · omega
      · have := h.1 x hm; omega

theorem drop_lowerBound_head {l : List Nat} (h : SSorted l) (x : Nat) :
    (l.drop (lowerBound l x)).head? = some x ↔ x ∈ l := by
  induction l with
  | nil => simp
  | cons y r ih =>
    rw [SSorted, List.pairwise_cons] at h
    rw [lowerBound_cons]
    split
    · rename_i hlt
      rw [List.drop_succ_cons, ih h.2]
      simp; omega
    · rename_i hge
      simp only [List.drop_zero, List.head?_cons, Option.some.injEq, List.mem_cons]
      constructor
      · intro e; exact Or.inl e.symm
      · rintro (e | hm)
        · exact e.symm
        · have := h.1 x hm; omega

theorem drop_lowerBound_succ {l : List Nat} (h : SSorted l) (x : Nat) :
    l.drop (lowerBound l (x + 1)) =
      if x ∈ l then (l.drop (lowerBound l x)).tail else l.drop (lowerBound l x) := by
  rw [lowerBound_succ h]
  split
  · rw [List.tail_drop]
  · rfl

theorem binarySearch_iff {l : List Nat} (h : SSorted l) (x : Nat) :
    binarySearch l x = true ↔ x ∈ l := by
  rw [← drop_lowerBound_head h]
  unfold binarySearch
  have hge : ∀ y r, l.drop (lowerBound l x) = y :: r → x ≤ y := by
    clear h
    induction l with
    | nil => simp
    | cons z t ih =>
      intro y r
      rw [lowerBound_cons]
      split
      · rw [List.drop_succ_cons]; exact ih y r
      · rename_i hz
        rw [List.drop_zero]
        rintro e
        injection e with e1 e2
        omega
  split
  · rename_i e; simp [e]
  · rename_i y r e
    have := hge y r e
    simp [e]; omega

/-! ### counting -/

/-- Number of `x` in `[b, b+n)` with `P x`. -/
def cnt (P : Nat → Bool) (b : Nat) : Nat → Nat
  | 0 => 0
  | n + 1 => cnt P b n + (if P (b + n) then 1 else 0)

theorem cnt_add (P : Nat → Bool) (b n m : Nat) : cnt P b (n + m) = cnt P b n + cnt P (b + n) m := by
  induction m with
  | zero => rfl
  | succ m ih => rw [← Nat.add_assoc, cnt, ih, cnt, Nat.add_assoc, Nat.add_assoc]

theorem cnt_congr {P Q : Nat → Bool} (b n : Nat) (h : ∀ i < n, P (b + i) = Q (b + i)) :
    cnt P b n = cnt Q b n := by
  induction n with
  | zero => rfl
  | succ n ih => rw [cnt, cnt, ih (fun i hi => h i (by omega)), h n (by omega)]

theorem weekday_block (b w : Nat) : cnt (fun d => !weekEnd d) b (7 * w) = 5 * w := by
  induction w with
  | zero => rfl
  | succ w ih =>
    have e : 7 * (w + 1) = 7 * w + 7 := by ring
    rw [e, cnt_add, ih]
    have hw : ∀ d, (!weekEnd d) = decide ((d + 3) % 7 ≠ 0 ∧ (d + 3) % 7 ≠ 6) := by
      intro d
      have := weekEnd_iff d
      cases hc : weekEnd d
      · rw [hc] at this; simp at this ⊢; omega
      · rw [hc] at this; simp at this ⊢; omega
    generalize b + 7 * w = x
    have key : ∀ r < 7, ∀ i : Nat, i < 7 → x % 7 = r → (x + i + 3) % 7 = (r + i + 3) % 7 := by
      intro r _ i _ h; omega
    have hr : x % 7 < 7 := Nat.mod_lt _ (by omega)
    simp only [cnt, hw, decide_eq_true_eq]
    rw [key _ hr 0 (by omega) rfl, key _ hr 1 (by omega) rfl, key _ hr 2 (by omega) rfl,
      key _ hr 3 (by omega) rfl, key _ hr 4 (by omega) rfl, key _ hr 5 (by omega) rfl,
      key _ hr 6 (by omega) rfl]
    have h7 : ∀ r < 7, (0 + (if (r + 0 + 3) % 7 ≠ 0 ∧ (r + 0 + 3) % 7 ≠ 6 then 1 else 0)
      + (if (r + 1 + 3) % 7 ≠ 0 ∧ (r + 1 + 3) % 7 ≠ 6 then 1 else 0)
      + (if (r + 2 + 3) % 7 ≠ 0 ∧ (r + 2 + 3) % 7 ≠ 6 then 1 else 0)
      + (if (r + 3 + 3) % 7 ≠ 0 ∧ (r + 3 + 3) % 7 ≠ 6 then 1 else 0)
      + (if (r + 4 + 3) % 7 ≠ 0 ∧ (r + 4 + 3) % 7 ≠ 6 then 1 else 0)
      + (if (r + 5 + 3) % 7 ≠ 0 ∧ (r + 5 + 3) % 7 ≠ 6 then 1 else 0)
      + (if (r + 6 + 3) % 7 ≠ 0 ∧ (r + 6 + 3) % 7 ≠ 6 then 1 else 0) : Nat) = 5 := by decide
    rw [h7 _ hr]; ring

/-- The data accepted by AddCenter. -/
structure Good (hols wws : List Nat) : Prop where
  sh : SSorted hols
  sw : SSorted wws
  hw : ∀ d ∈ hols, weekEnd d = false
  ww : ∀ d ∈ wws, weekEnd d = true

theorem acceptable_iff (hols wws : List Nat) : acceptable hols wws = true ↔ Good hols wws := by
  unfold acceptable
  simp only [Bool.and_eq_true, List.all_eq_true, isMonotonic_iff, Bool.not_eq_true']
  constructor
  · rintro ⟨⟨⟨a, b⟩, c⟩, d⟩; exact ⟨c, d, a, b⟩
  · rintro ⟨a, b, c, d⟩; exact ⟨⟨⟨c, d⟩, a⟩, b⟩

/-- Business day of merged data. -/
def busOf (hols wws : List Nat) (d : Nat) : Bool :=
  decide (d ∈ wws) || (!weekEnd d && !decide (d ∈ hols))

theorem bus_count {hols wws : List Nat} (g : Good hols wws) (b n : Nat) :
    (cnt (busOf hols wws) b n : Int) = cnt (fun d => !weekEnd d) b n
      - ((lowerBound hols (b + n) : Int) - lowerBound hols b)
      + ((lowerBound wws (b + n) : Int) - lowerBound wws b) := by
  induction n with
  | zero => simp [cnt]
  | succ n ih =>
    rw [cnt, cnt, ← Nat.add_assoc, lowerBound_succ g.sh, lowerBound_succ g.sw]
    have h1 := g.hw (b + n)
    have h2 := g.ww (b + n)
    unfold busOf at ih ⊢
    by_cases m1 : b + n ∈ hols <;> by_cases m2 : b + n ∈ wws
    · rw [h2 m2] at h1; exact absurd (h1 m1) (by simp)
    · simp [m1, m2, h1 m1]; omega
    · simp [m1, m2, h2 m2]; omega
    · cases hc : weekEnd (b + n) <;> simp [m1, m2] <;> omega

theorem countLoop_eq {hols wws : List Nat} (g : Good hols wws) (n : Nat) :
    ∀ (d : Nat) (acc : Int),
    countLoop n d (hols.drop (lowerBound hols d)) (wws.drop (lowerBound wws d)) acc
      = acc + cnt (busOf hols wws) d n := by
  induction n with
  | zero =>
    intro d acc
    rw [countLoop.eq_1, cnt.eq_1, Int.natCast_zero, Int.add_zero]
  | succ n ih =>
    intro d acc
    have hc : cnt (busOf hols wws) d (n + 1) =
        (if busOf hols wws d then 1 else 0) + cnt (busOf hols wws) (d + 1) n := by
      have := cnt_add (busOf hols wws) d 1 n
      rw [Nat.add_comm] at this
      rw [this]; simp [cnt]
    rw [hc]
    rw [countLoop.eq_2]
    have e1 := drop_lowerBound_succ g.sh d
    have e2 := drop_lowerBound_succ g.sw d
    have k1 := drop_lowerBound_head g.sh d
    have k2 := drop_lowerBound_head g.sw d
    have h1 := g.hw d
    have h2 := g.ww d
    generalize hols.drop (lowerBound hols d) = P1 at *
    generalize wws.drop (lowerBound wws d) = P2 at *
    by_cases m1 : d ∈ hols <;> by_cases m2 : d ∈ wws
    · rw [h2 m2] at h1; exact absurd (h1 m1) (by simp)
    · have i := ih (d + 1) acc
      rw [e1, e2, if_pos m1, if_neg m2] at i
      have hst : countStep d P1 P2 acc = (P1.tail, P2, acc) := by
        simp [countStep, k1, k2, m1, m2, h1 m1]
      rw [hst, i]; simp [busOf, m1, m2, h1 m1]
    · have i := ih (d + 1) (acc + 1)
      rw [e1, e2, if_neg m1, if_pos m2] at i
      have hst : countStep d P1 P2 acc = (P1, P2.tail, acc + 1) := by
        simp [countStep, k2, m2, h2 m2]
      rw [hst, i]; simp [busOf, m2]; ring
    · cases hc : weekEnd d
      · have i := ih (d + 1) (acc + 1)
        rw [e1, e2, if_neg m1, if_neg m2] at i
        have hst : countStep d P1 P2 acc = (P1, P2, acc + 1) := by
          simp [countStep, k1, k2, m1, m2, hc]
        rw [hst, i]; simp [busOf, m1, m2, hc]; ring
      · have i := ih (d + 1) acc
        rw [e1, e2, if_neg m1, if_neg m2] at i
        have hst : countStep d P1 P2 acc = (P1, P2, acc) := by
          simp [countStep, k2, m2, hc]
        rw [hst, i]; simp [busOf, m2, hc]

theorem countBusDays_eq {hols wws : List Nat} (g : Good hols wws) (b e : Nat) :
    countBusDays hols wws b e = cnt (busOf hols wws) b (e - b) := by
  unfold countBusDays
  split
  · rename_i h; rw [Nat.sub_eq_zero_of_le h]; rfl
  · rename_i h
    simp only
    rw [countLoop_eq g]
    have hb := bus_count g b (7 * ((e - b) / 7))
    rw [weekday_block] at hb
    have hs : e - b = 7 * ((e - b) / 7) + (e - (b + 7 * ((e - b) / 7))) := by omega
    have := cnt_add (busOf hols wws) b (7 * ((e - b) / 7)) (e - (b + 7 * ((e - b) / 7)))
    rw [← hs] at this
    rw [this]
    push_cast
    rw [hb]; push_cast; ring

/-! ### merged calendars -/

/-- Every centre satisfies the checks of AddCenter. -/
def GoodHols (h : Hols) : Prop := ∀ c ∈ h, Good c.holidays c.workWeekends

theorem merged_good {h : Hols} (g : GoodHols h) : Good (merged h).1 (merged h).2 := by
  refine ⟨unique_sorted _, unique_sorted _, ?_, ?_⟩
  · intro d hd
    simp only [merged, mem_unique, List.mem_flatMap] at hd
    obtain ⟨c, hc, hm⟩ := hd
    exact (g c hc).hw d hm
  · intro d hd
    simp only [merged, mem_unique, List.mem_flatMap] at hd
    obtain ⟨c, hc, hm⟩ := hd
    exact (g c hc).ww d hm

theorem isHoliday_iff {h : Hols} (g : GoodHols h) (d : Nat) :
    isHoliday h d = true ↔ ∃ c ∈ h, d ∈ c.holidays := by
  unfold isHoliday
  rw [List.any_eq_true]
  exact ⟨fun ⟨c, hc, hb⟩ => ⟨c, hc, (binarySearch_iff (g c hc).sh d).1 hb⟩,
    fun ⟨c, hc, hb⟩ => ⟨c, hc, (binarySearch_iff (g c hc).sh d).2 hb⟩⟩

theorem isWorkWeekends_iff {h : Hols} (g : GoodHols h) (d : Nat) :
    isWorkWeekends h d = true ↔ ∃ c ∈ h, d ∈ c.workWeekends := by
  unfold isWorkWeekends
  rw [List.any_eq_true]
  exact ⟨fun ⟨c, hc, hb⟩ => ⟨c, hc, (binarySearch_iff (g c hc).sw d).1 hb⟩,
    fun ⟨c, hc, hb⟩ => ⟨c, hc, (binarySearch_iff (g c hc).sw d).2 hb⟩⟩

theorem busOf_merged {h : Hols} (g : GoodHols h) (d : Nat) :
    busOf (merged h).1 (merged h).2 d = isBus h d := by
  have h1 := isHoliday_iff g d
  have h2 := isWorkWeekends_iff g d
  have m1 : d ∈ (merged h).1 ↔ ∃ c ∈ h, d ∈ c.holidays := by
    simp only [merged, mem_unique, List.mem_flatMap]
  have m2 : d ∈ (merged h).2 ↔ ∃ c ∈ h, d ∈ c.workWeekends := by
    simp only [merged, mem_unique, List.mem_flatMap]
  rw [← h1] at m1
  rw [← h2] at m2
  unfold busOf isBus
  simp only [m1, m2]
  simp

/-! ### searching for business days -/

theorem nextLoop_none (h : Hols) (n : Nat) : ∀ d, d < 65536 →
    (nextBusLoop h n d = none ↔ ∀ i < n, isBus h ((d + i) % 65536) = false) := by
  induction n with
  | zero => intro d _; simp [nextBusLoop]
  | succ n ih =>
    intro d hd
    unfold nextBusLoop
    by_cases hb : isBus h d = true
    · simp only [hb, if_true]
      constructor
      · intro hc; simp at hc
      · intro hc
        have := hc 0 (by omega)
        rw [Nat.add_zero, Nat.mod_eq_of_lt hd, hb] at this; simp at this
    · simp only [hb]
      rw [if_neg (by simp), ih _ (by omega)]
      constructor
      · intro hc i hi
        cases i with
        | zero => rw [Nat.add_zero, Nat.mod_eq_of_lt hd]; simpa using hb
        | succ i =>
          have := hc i (by omega)
          rw [Nat.mod_add_mod] at this
          rw [← this]; congr 2; omega
      · intro hc i hi
        have := hc (i + 1) (by omega)
        rw [Nat.mod_add_mod, ← this]; congr 2; omega

theorem nextLoop_some (h : Hols) (n : Nat) : ∀ d e, d ≤ e → e < 65536 → e - d < n →
    isBus h e = true → ∃ r, nextBusLoop h n d = some r ∧ d ≤ r ∧ r ≤ e ∧ isBus h r = true ∧
      ∀ x, d ≤ x → x < r → isBus h x = false := by
  induction n with
  | zero => intro d e _ _ hn; omega
  | succ n ih =>
    intro d e hde he hn hb
    unfold nextBusLoop
    by_cases hd : isBus h d = true
    · exact ⟨d, by rw [if_pos hd], le_refl _, hde, hd, fun x h1 h2 => by omega⟩
    · have hne : d ≠ e := by rintro rfl; exact hd hb
      obtain ⟨r, h1, h2, h3, h4, h5⟩ := ih (d + 1) e (by omega) he (by omega) hb
      refine ⟨r, ?_, by omega, h3, h4, ?_⟩
      · rw [if_neg hd, Nat.mod_eq_of_lt (by omega)]; exact h1
      · intro x hx hxr
        by_cases hxd : x = d
        · subst hxd; simpa using hd
        · exact h5 x (by omega) hxr

theorem prevLoop_none (h : Hols) (n : Nat) : ∀ d, d < 65536 →
    (prevBusLoop h n d = none ↔ ∀ i < n, isBus h ((d + 65535 * i) % 65536) = false) := by
  induction n with
  | zero => intro d _; simp [prevBusLoop]
  | succ n ih =>
    intro d hd
    unfold prevBusLoop
    by_cases hb : isBus h d = true
    · simp only [hb, if_true]
      constructor
      · intro hc; simp at hc
      · intro hc
        have := hc 0 (by omega)
        rw [Nat.mul_zero, Nat.add_zero, Nat.mod_eq_of_lt hd, hb] at this; simp at this
    · simp only [hb]
      rw [if_neg (by simp), ih _ (by omega)]
      constructor
      · intro hc i hi
        cases i with
        | zero => rw [Nat.mul_zero, Nat.add_zero, Nat.mod_eq_of_lt hd]; simpa using hb
        | succ i =>
          have := hc i (by omega)
          rw [Nat.mod_add_mod] at this
          rw [← this]; congr 2; ring
      · intro hc i hi
        have := hc (i + 1) (by omega)
        rw [Nat.mod_add_mod, ← this]; congr 2; ring

theorem prevLoop_some (h : Hols) (n : Nat) : ∀ d e, e ≤ d → d < 65536 → d - e < n →
    isBus h e = true → ∃ r, prevBusLoop h n d = some r ∧ r ≤ d ∧ e ≤ r ∧ isBus h r = true ∧
      ∀ x, r < x → x ≤ d → isBus h x = false := by
  induction n with
  | zero => intro d e _ _ hn; omega
  | succ n ih =>
    intro d e hde he hn hb
    unfold prevBusLoop
    by_cases hd : isBus h d = true
    · exact ⟨d, by rw [if_pos hd], le_refl _, hde, hd, fun x h1 h2 => by omega⟩
    · have hne : d ≠ e := by rintro rfl; exact hd hb
      obtain ⟨r, h1, h2, h3, h4, h5⟩ := ih (d - 1) e (by omega) (by omega) (by omega) hb
      refine ⟨r, ?_, by omega, h3, h4, ?_⟩
      · rw [if_neg hd]
        have : (d + 65535) % 65536 = d - 1 := by omega
        rw [this]; exact h1
      · intro x hx hxr
        by_cases hxd : x = d
        · subst hxd; simpa using hd
        · exact h5 x hx (by omega)

end Dal.Hol
