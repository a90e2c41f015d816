import Verif.Excel.DriverModel

/-! # C92: charts and matrices in sheets -/

namespace Dal
open Driver

variable {V : Type}

/-! ### Single rows and columns -/

private theorem downLoop_spec (vs : List V) : ∀ (s : Sheet V) (r c : Int), (∀ (i : Nat) v, vs[i]? = some v → downLoop s r c vs (r + i) c = some (.number v)) ∧
    ∀ r' c', (c' ≠ c ∨ r' < r ∨ r + vs.length ≤ r') → downLoop s r c vs r' c' = s r' c' := by
  induction vs with
  | nil => intro s r c; exact ⟨fun i v h => by simp at h, fun r' c' _ => rfl⟩
  | cons v vs ih =>
    intro s r c
    obtain ⟨h1, h2⟩ := ih (put s r c (.number v)) (r + 1) c
    refine ⟨fun i w hw => ?_, fun r' c' h => ?_⟩
    · cases i with
      | zero =>
        simp only [List.getElem?_cons_zero, Option.some.injEq] at hw
        subst hw
        rw [downLoop, h2 _ _ (Or.inr (Or.inl (by push_cast; omega)))]
        simp [put]
      | succ i =>
        rw [List.getElem?_cons_succ] at hw
        have := h1 i w hw
        rw [downLoop, show r + ((i + 1 : Nat) : Int) = r + 1 + i by push_cast; omega]
        exact this
    · rw [List.length_cons] at h
      rw [downLoop, h2 _ _ (by push_cast at h; omega), put, if_neg (by push_cast at h; omega)]

private theorem toDown_spec (s : Sheet V) (r c : Int) (l : Driver.Str) (vs : List V) : toDown s r c l vs r c = some (.text l) ∧
    (∀ (i : Nat) v, vs[i]? = some v → toDown s r c l vs (r + 1 + i) c = some (.number v)) ∧
    ∀ r' c', (c' ≠ c ∨ r' < r ∨ r + vs.length < r') → toDown s r c l vs r' c' = s r' c' := by
  obtain ⟨h1, h2⟩ := downLoop_spec vs (put s r c (.text l)) (r + 1) c
  refine ⟨?_, h1, fun r' c' h => ?_⟩
  · rw [toDown, h2 _ _ (Or.inr (Or.inl (by omega)))]; simp [put]
  · rw [toDown, h2 _ _ (by omega), put, if_neg (by omega)]

private theorem rightLoop_spec (vs : List V) : ∀ (s : Sheet V) (r c : Int), (∀ (i : Nat) v, vs[i]? = some v → rightLoop s r c vs r (c + i) = some (.number v)) ∧
    ∀ r' c', (r' ≠ r ∨ c' < c ∨ c + vs.length ≤ c') → rightLoop s r c vs r' c' = s r' c' := by
  induction vs with
  | nil => intro s r c; exact ⟨fun i v h => by simp at h, fun r' c' _ => rfl⟩
  | cons v vs ih =>
    intro s r c
    obtain ⟨h1, h2⟩ := ih (put s r c (.number v)) r (c + 1)
    refine ⟨fun i w hw => ?_, fun r' c' h => ?_⟩
    · cases i with
      | zero =>
        simp only [List.getElem?_cons_zero, Option.some.injEq] at hw
        subst hw
        rw [rightLoop, h2 _ _ (Or.inr (Or.inl (by push_cast; omega)))]
        simp [put]
      | succ i =>
        rw [List.getElem?_cons_succ] at hw
        have := h1 i w hw
        rw [rightLoop, show c + ((i + 1 : Nat) : Int) = c + 1 + i by push_cast; omega]
        exact this
    · rw [List.length_cons] at h
      rw [rightLoop, h2 _ _ (by push_cast at h; omega), put, if_neg (by push_cast at h; omega)]

private theorem toRight_spec (s : Sheet V) (r c : Int) (l : Driver.Str) (vs : List V) : toRight s r c l vs r c = some (.text l) ∧
    (∀ (i : Nat) v, vs[i]? = some v → toRight s r c l vs r (c + 1 + i) = some (.number v)) ∧
    ∀ r' c', (r' ≠ r ∨ c' < c ∨ c + vs.length < c') → toRight s r c l vs r' c' = s r' c' := by
  obtain ⟨h1, h2⟩ := rightLoop_spec vs (put s r c (.text l)) r (c + 1)
  refine ⟨?_, h1, fun r' c' h => ?_⟩
  · rw [toRight, h2 _ _ (Or.inr (Or.inl (by omega)))]; simp [put]
  · rw [toRight, h2 _ _ (by omega), put, if_neg (by omega)]

private theorem columns_spec (vs : List (List V)) : ∀ (s : Sheet V) (c : Int) (ls : List Driver.Str), vs.length ≤ ls.length →
    (columns s c ls vs).2 = (c + vs.length, true) ∧
    (∀ (j : Nat) l, ls[j]? = some l → j < vs.length → (columns s c ls vs).1 1 (c + j) = some (.text l)) ∧
    (∀ (j : Nat) vec, vs[j]? = some vec → ∀ (i : Nat) v, vec[i]? = some v → (columns s c ls vs).1 (i + 2) (c + j) = some (.number v)) ∧
    ∀ r' c', (c' < c ∨ c + vs.length ≤ c' ∨ r' < 1) → (columns s c ls vs).1 r' c' = s r' c' := by
  induction vs with
  | nil => intro s c ls _; cases ls <;> exact ⟨by simp [columns], by simp, by simp, fun _ _ _ => by simp [columns]⟩
  | cons v vs ih =>
    intro s c ls hl
    cases ls with
    | nil => simp at hl
    | cons l ls =>
      obtain ⟨h1, h2, h3, h4⟩ := ih (toDown s 1 c l v) (c + 1) ls (by simpa using hl)
      obtain ⟨d1, d2, d3⟩ := toDown_spec s 1 c l v
      rw [columns]
      refine ⟨?_, fun j l' hl' hj => ?_, fun j vec hvec i w hw => ?_, fun r' c' h => ?_⟩
      · rw [h1, List.length_cons]
        congr 1
        push_cast; omega
      · cases j with
        | zero =>
          simp only [List.getElem?_cons_zero, Option.some.injEq] at hl'
          subst hl'
          rw [h4 _ _ (Or.inl (by push_cast; omega)), show c + ((0 : Nat) : Int) = c by simp]
          exact d1
        | succ j =>
          rw [List.getElem?_cons_succ] at hl'
          rw [show c + ((j + 1 : Nat) : Int) = c + 1 + j by push_cast; omega]
          exact h2 j l' hl' (by simpa using hj)
      · cases j with
        | zero =>
          simp only [List.getElem?_cons_zero, Option.some.injEq] at hvec
          subst hvec
          rw [h4 _ _ (Or.inl (by push_cast; omega)), show c + ((0 : Nat) : Int) = c by simp]
          have := d2 i w hw
          rw [show (i : Int) + 2 = 1 + 1 + i by omega]
          exact this
        | succ j =>
          rw [List.getElem?_cons_succ] at hvec
          rw [show c + ((j + 1 : Nat) : Int) = c + 1 + j by push_cast; omega]
          exact h3 j vec hvec i w hw
      · rw [List.length_cons] at h
        rw [h4 _ _ (by push_cast at h; omega), d3 _ _ (by push_cast at h; omega)]

private theorem columns_below (vs : List (List V)) : ∀ (s : Sheet V) (c : Int) (ls : List Driver.Str), vs.length ≤ ls.length → ∀ (r' c' : Int),
    ¬(∃ (j : Nat) (vec : List V), vs[j]? = some vec ∧ c' = c + j ∧ 1 ≤ r' ∧ r' ≤ vec.length + 1) → (columns s c ls vs).1 r' c' = s r' c' := by
  induction vs with
  | nil => intro s c ls _ r' c' _; cases ls <;> rfl
  | cons v vs ih =>
    intro s c ls hl r' c' h
    cases ls with
    | nil => simp at hl
    | cons l ls =>
      rw [columns, ih _ _ _ (by simpa using hl) r' c' fun ⟨j, vec, hj, hc, h1, h2⟩ => h ⟨j + 1, vec, by simpa using hj, by push_cast; omega, h1, h2⟩]
      obtain ⟨-, -, d3⟩ := toDown_spec s 1 c l v
      refine d3 r' c' ?_
      by_contra h'
      exact h ⟨0, v, rfl, by push_cast; omega, by omega, by omega⟩

private theorem columns_short (vs : List (List V)) : ∀ (s : Sheet V) (c : Int) (ls : List Driver.Str), ls.length < vs.length → (columns s c ls vs).2.2 = false := by
  induction vs with
  | nil => intro s c ls h; simp at h
  | cons v vs ih =>
    intro s c ls h
    cases ls with
    | nil => rfl
    | cons l ls => rw [columns]; exact ih _ _ _ (by simpa using h)

/-! ### Charts -/

/-- The data of a chart in a sheet from a column on: labels in the first row, inputs in the first column, one function in each further column. -/
structure ChartData (s : Sheet V) (c : Int) (x : List V) (labels : List Driver.Str) (vectors : List (List V)) (xTitle : Driver.Str) : Prop where
  title : s 1 c = some (.text xTitle)
  inputs : ∀ (i : Nat) v, x[i]? = some v → s (i + 2) c = some (.number v)
  labels : ∀ (j : Nat) l, labels[j]? = some l → j < vectors.length → s 1 (c + 1 + j) = some (.text l)
  outputs : ∀ (j : Nat) vec, vectors[j]? = some vec → ∀ (i : Nat) v, vec[i]? = some v → s (i + 2) (c + 1 + j) = some (.number v)

/-- C92, charts: with a label for each function, the data are written in the next columns and nowhere else, the chart has the range of these columns and of the inputs, and the
next chart begins behind it; only the name can be refused. -/
theorem C92_chart (valid : Driver.Str → Bool) (same : Driver.Str → Driver.Str → Bool) (b : Book V) (x : List V) (labels : List Driver.Str) (vectors : List (List V)) (title xTitle : Driver.Str)
    (hl : vectors.length ≤ labels.length) :
    let p := createChart valid same b x labels vectors title xTitle
    ChartData p.1.data b.cur x labels vectors xTitle ∧
    (∀ r c, c < b.cur ∨ b.cur + vectors.length < c ∨ r < 1 → p.1.data r c = b.data r c) ∧
    p.1.charts.map Prod.snd = b.charts.map Prod.snd ++ [⟨1, b.cur, x.length + 1, b.cur + vectors.length⟩] ∧ p.1.sheets = b.sheets ∧
    (free valid same b title = true → p.2 = .ok ∧ p.1.cur = b.cur + vectors.length + 2 ∧ p.1.charts.map Prod.fst = b.charts.map Prod.fst ++ [some title]) ∧
    (free valid same b title = false → p.2 = .throws ∧ p.1.cur = b.cur + vectors.length + 1) := by
  obtain ⟨h1, h2, h3, h4⟩ := columns_spec vectors (toDown b.data 1 b.cur xTitle x) (b.cur + 1) labels hl
  obtain ⟨d1, d2, d3⟩ := toDown_spec b.data 1 b.cur xTitle x
  have e1 : (columns (toDown b.data 1 b.cur xTitle x) (b.cur + 1) labels vectors).2.2 = true := by rw [h1]
  have e2 : (columns (toDown b.data 1 b.cur xTitle x) (b.cur + 1) labels vectors).2.1 = b.cur + 1 + vectors.length := by rw [h1]
  have hfree : ∀ d k, free valid same ({ b with data := d, cur := k } : Book V) title = free valid same b title := fun _ _ => rfl
  have hdata : (createChart valid same b x labels vectors title xTitle).1.data = (columns (toDown b.data 1 b.cur xTitle x) (b.cur + 1) labels vectors).1 := by
    simp only [createChart, e1, if_true, hfree]
    split <;> rfl
  refine ⟨?_, ?_, ?_, ?_, ?_, ?_⟩
  · rw [hdata]
    refine ⟨?_, ?_, h2, h3⟩
    · rw [h4 _ _ (Or.inl (by omega))]; exact d1
    · intro i v hv
      rw [h4 _ _ (Or.inl (by omega)), show (i : Int) + 2 = 1 + 1 + i by omega]
      exact d2 i v hv
  · intro r c h
    rw [hdata, h4 _ _ (by omega), d3 _ _ (by omega)]
  · simp only [createChart, e1, if_true, hfree]
    split <;> simp
  · simp only [createChart, e1, if_true, hfree]
    split <;> rfl
  · intro hf
    simp only [createChart, e1, if_true, hfree, hf, e2, List.map_append, List.map_cons, List.map_nil, and_true, true_and]
    omega
  · intro hf
    simp only [createChart, e1, if_true, hfree, hf, e2, Bool.false_eq_true, if_false, true_and]
    omega

example : let p := createChart (fun _ => true) (· == ·) (start 1 : Book Nat) [1, 2] ["f".toList, "g".toList] [[10, 20], [30, 40]] "T".toList "x".toList
    p.2 = .ok ∧ p.1.data 3 2 = some (.number 20) ∧ p.1.data 1 3 = some (.text "g".toList) ∧ p.1.cur = 5 ∧ p.1.charts = [(some "T".toList, ⟨1, 1, 3, 3⟩)] := by decide +kernel

/-- The cells that are written: those of the inputs and their title, and of each function and its label, and no others. -/
theorem C92_written (valid : Driver.Str → Bool) (same : Driver.Str → Driver.Str → Bool) (b : Book V) (x : List V) (labels : List Driver.Str) (vectors : List (List V)) (title xTitle : Driver.Str)
    (hl : vectors.length ≤ labels.length) :
    let p := createChart valid same b x labels vectors title xTitle
    ChartData p.1.data b.cur x labels vectors xTitle ∧
    ∀ (r c : Int), ¬((c = b.cur ∧ 1 ≤ r ∧ r ≤ x.length + 1) ∨ ∃ (j : Nat) (vec : List V), vectors[j]? = some vec ∧ c = b.cur + 1 + j ∧ 1 ≤ r ∧ r ≤ vec.length + 1) → p.1.data r c = b.data r c := by
  have e1 : (columns (toDown b.data 1 b.cur xTitle x) (b.cur + 1) labels vectors).2.2 = true := by rw [(columns_spec vectors _ _ labels hl).1]
  have hdata : (createChart valid same b x labels vectors title xTitle).1.data = (columns (toDown b.data 1 b.cur xTitle x) (b.cur + 1) labels vectors).1 := by
    simp only [createChart, e1, if_true]
    split <;> rfl
  refine ⟨(C92_chart valid same b x labels vectors title xTitle hl).1, fun r c h => ?_⟩
  rw [hdata, columns_below vectors _ _ labels hl r c fun ⟨j, vec, hj, hc, h1, h2⟩ => h (Or.inr ⟨j, vec, hj, hc, h1, h2⟩)]
  obtain ⟨-, -, d3⟩ := toDown_spec b.data 1 b.cur xTitle x
  exact d3 r c (by by_contra h'; exact h (Or.inl (by omega)))

example : (createChart (fun _ => true) (· == ·) (start 1 : Book Nat) [1, 2, 3] ["f".toList] [[10]] "T".toList "x".toList).1.data 3 2 = none := by decide +kernel

/-- The range of a chart has exactly its data when all functions have as many values as there are inputs: every cell of it was written. -/
theorem C92_range (valid : Driver.Str → Bool) (same : Driver.Str → Driver.Str → Bool) (b : Book V) (x : List V) (labels : List Driver.Str) (vectors : List (List V)) (title xTitle : Driver.Str)
    (hl : vectors.length ≤ labels.length) (hs : ∀ v ∈ vectors, v.length = x.length) (r c : Int) :
    let p := createChart valid same b x labels vectors title xTitle
    (1 ≤ r ∧ r ≤ x.length + 1 ∧ b.cur ≤ c ∧ c ≤ b.cur + vectors.length → (p.1.data r c).isSome) ∧
    (¬(1 ≤ r ∧ r ≤ x.length + 1 ∧ b.cur ≤ c ∧ c ≤ b.cur + vectors.length) → p.1.data r c = b.data r c) := by
  obtain ⟨h1, h2⟩ := C92_written valid same b x labels vectors title xTitle hl
  refine ⟨fun ⟨r1, r2, c1, c2⟩ => ?_, fun h => h2 r c fun h' => h ?_⟩
  · obtain ⟨t1, t2, t3, t4⟩ := h1
    by_cases hc : c = b.cur
    · subst hc
      by_cases hr : r = 1
      · rw [hr, t1]; rfl
      · obtain ⟨i, hi⟩ := Int.eq_ofNat_of_zero_le (show 0 ≤ r - 2 by omega)
        have hlt : i < x.length := by omega
        rw [show r = (i : Int) + 2 by omega, t2 i _ (List.getElem?_eq_getElem hlt)]; rfl
    · obtain ⟨j, hj⟩ := Int.eq_ofNat_of_zero_le (show 0 ≤ c - b.cur - 1 by omega)
      have hjl : j < vectors.length := by omega
      rw [show c = b.cur + 1 + j by omega]
      by_cases hr : r = 1
      · rw [hr, t3 j _ (List.getElem?_eq_getElem (show j < labels.length by omega)) hjl]; rfl
      · obtain ⟨i, hi⟩ := Int.eq_ofNat_of_zero_le (show 0 ≤ r - 2 by omega)
        have hlen := hs _ (List.getElem_mem hjl)
        have hlt : i < (vectors[j]).length := by omega
        rw [show r = (i : Int) + 2 by omega, t4 j _ (List.getElem?_eq_getElem hjl) i _ (List.getElem?_eq_getElem hlt)]; rfl
  · rcases h' with ⟨hc, r1, r2⟩ | ⟨j, vec, hv, hc, r1, r2⟩
    · omega
    · have hjl : j < vectors.length := (List.getElem?_eq_some_iff.1 hv).1
      have := hs vec (List.mem_of_getElem? hv)
      omega

example : let p := createChart (fun _ => true) (· == ·) (start 4 : Book Nat) [1] ["f".toList] [[10]] "T".toList "x".toList
    (p.1.data 2 5).isSome ∧ p.1.data 3 5 = none := by decide +kernel

/-- C92 fails with fewer labels than functions: the labels are read behind their end. -/
theorem C92_labels_violated (valid : Driver.Str → Bool) (same : Driver.Str → Driver.Str → Bool) (b : Book V) (x : List V) (labels : List Driver.Str) (vectors : List (List V))
    (title xTitle : Driver.Str) (hl : labels.length < vectors.length) : (createChart valid same b x labels vectors title xTitle).2 = .undefined := by
  simp only [createChart, columns_short vectors _ _ labels hl, Bool.false_eq_true, if_false]

example : (createChart (fun _ => true) (· == ·) (start 1 : Book Nat) [1, 2] ["f".toList] [[10, 20], [30, 40]] "T".toList "x".toList).2 = .undefined := by decide +kernel

/-- C92 fails for functions with more values than there are inputs: the last value is below the range of the chart. -/
theorem C92_long_violated (valid : Driver.Str → Bool) (same : Driver.Str → Driver.Str → Bool) (b : Book V) (x : List V) (labels : List Driver.Str) (vectors : List (List V))
    (title xTitle : Driver.Str) (hl : vectors.length ≤ labels.length) (j i : Nat) (vec : List V) (v : V) (hj : vectors[j]? = some vec) (hv : vec[i]? = some v) (hi : x.length ≤ i) :
    let p := createChart valid same b x labels vectors title xTitle
    ∃ range, p.1.charts.map Prod.snd = b.charts.map Prod.snd ++ [range] ∧ p.1.data (i + 2) (b.cur + 1 + j) = some (.number v) ∧ range.lastRow < (i : Int) + 2 := by
  obtain ⟨h1, -, h3, -⟩ := C92_chart valid same b x labels vectors title xTitle hl
  exact ⟨_, h3, h1.outputs j vec hj i v hv, by show (x.length : Int) + 1 < i + 2; omega⟩

example : let p := createChart (fun _ => true) (· == ·) (start 1 : Book Nat) [1] ["f".toList] [[10, 20]] "T".toList "x".toList
    p.1.data 3 2 = some (.number 20) ∧ p.1.charts.map (fun c => c.2.lastRow) = [2] := by decide +kernel

/-! ### Sequences of calls -/

/-- Ranges of charts from left to right, from a first column on, the last one before the next column. -/
def LeftOf (first : Int) (b : Book V) : Prop := first ≤ b.cur ∧ (b.charts.map Prod.snd).Pairwise (fun r r' => r.lastCol < r'.firstCol) ∧ ∀ r ∈ b.charts.map Prod.snd, first ≤ r.firstCol ∧ r.firstCol ≤ r.lastCol ∧ r.lastCol < b.cur

private theorem step_spec (first : Int) (valid : Driver.Str → Bool) (same : Driver.Str → Driver.Str → Bool) (b : Book V) (k : Call V) (hk : (step valid same b k).2 ≠ .undefined) :
    (LeftOf first b → LeftOf first (step valid same b k).1) ∧ b.cur ≤ (step valid same b k).1.cur ∧ ∀ r c, c < b.cur → (step valid same b k).1.data r c = b.data r c := by
  have sheet : ∀ n fill, (addSheet valid same b n fill).1.data = b.data ∧ (addSheet valid same b n fill).1.cur = b.cur ∧ (addSheet valid same b n fill).1.charts = b.charts := by
    intro n fill
    rw [addSheet]
    split <;> exact ⟨rfl, rfl, rfl⟩
  have keep : ∀ b' : Book V, b'.data = b.data ∧ b'.cur = b.cur ∧ b'.charts = b.charts → (LeftOf first b → LeftOf first b') ∧ b.cur ≤ b'.cur ∧ ∀ r c, c < b.cur → b'.data r c = b.data r c := by
    rintro b' ⟨h1, h2, h3⟩
    refine ⟨fun h => ?_, by rw [h2], fun r c _ => by rw [h1]⟩
    rw [LeftOf, h2, h3]
    exact h
  cases k with
  | matrix m name rl cl r c => exact keep _ (sheet _ _)
  | plain m name r c => exact keep _ (sheet _ _)
  | lines ls r c => exact keep _ ⟨rfl, rfl, rfl⟩
  | chart x labels vectors title xTitle =>
    have hl : vectors.length ≤ labels.length := by
      by_contra h
      exact hk (C92_labels_violated valid same b x labels vectors title xTitle (by omega))
    obtain ⟨-, h2, h3, -, h5, h6⟩ := C92_chart valid same b x labels vectors title xTitle hl
    have hcur : b.cur + vectors.length < (createChart valid same b x labels vectors title xTitle).1.cur := by
      cases hf : free valid same b title with
      | true => rw [(h5 hf).2.1]; omega
      | false => rw [(h6 hf).2]; omega
    refine ⟨fun h => ?_, by show b.cur ≤ (createChart valid same b x labels vectors title xTitle).1.cur; omega, fun r c hc => h2 r c (Or.inl hc)⟩
    show LeftOf first (createChart valid same b x labels vectors title xTitle).1
    rw [LeftOf, h3]
    refine ⟨by have := h.1; omega, List.pairwise_append.2 ⟨h.2.1, List.pairwise_singleton _ _, fun r hr r' hr' => ?_⟩, fun r hr => ?_⟩
    · rw [List.mem_singleton.1 hr']
      exact (h.2.2 r hr).2.2
    · rcases List.mem_append.1 hr with hr | hr
      · have := h.2.2 r hr
        exact ⟨this.1, this.2.1, by omega⟩
      · rw [List.mem_singleton.1 hr]
        exact ⟨h.1, by show b.cur ≤ b.cur + (vectors.length : Int); omega, hcur⟩

/-- C92, sequences: whatever is called and whatever is refused, charts do not share columns, and later calls leave the columns of earlier charts as they are. -/
theorem C92_apart (first : Int) (valid : Driver.Str → Bool) (same : Driver.Str → Driver.Str → Bool) (ks : List (Call V)) : ∀ (b b' : Book V), run valid same b ks = (b', true) →
    (LeftOf first b → LeftOf first b') ∧ b.cur ≤ b'.cur ∧ ∀ r c, c < b.cur → b'.data r c = b.data r c := by
  induction ks with
  | nil =>
    intro b b' h
    simp only [run, Prod.mk.injEq, and_true] at h
    subst h
    exact ⟨id, le_refl _, fun _ _ _ => rfl⟩
  | cons k ks ih =>
    intro b b' h
    simp only [run] at h
    split at h
    · simp at h
    · rename_i hk
      obtain ⟨s1, s2, s3⟩ := step_spec first valid same b k hk
      obtain ⟨i1, i2, i3⟩ := ih _ _ h
      exact ⟨i1 ∘ s1, le_trans s2 i2, fun r c hc => by rw [i3 r c (by omega), s3 r c hc]⟩

example : let p := run (fun _ => true) (· == ·) (start 1 : Book Nat) [.chart [1, 2] ["f".toList] [[10, 20]] "T".toList "x".toList, .chart [1] ["g".toList] [[7]] "T".toList "y".toList,
      .chart [1] ["h".toList] [[8]] "U".toList "z".toList]
    p.2 = true ∧ p.1.charts.map Prod.snd = [⟨1, 1, 3, 2⟩, ⟨1, 4, 2, 5⟩, ⟨1, 6, 2, 7⟩] ∧ p.1.charts.map Prod.fst = [some "T".toList, none, some "U".toList] := by decide +kernel

/-- C92, sequences: the driver begins without charts, so all its charts are apart, from the first column on. -/
theorem C92_start (valid : Driver.Str → Bool) (same : Driver.Str → Driver.Str → Bool) (column : Int) (ks : List (Call V)) (b : Book V) (h : run valid same (start column) ks = (b, true)) :
    (b.charts.map Prod.snd).Pairwise (fun r r' => r.lastCol < r'.firstCol) ∧ ∀ r ∈ b.charts.map Prod.snd, column ≤ r.firstCol ∧ r.firstCol ≤ r.lastCol ∧ r.lastCol < b.cur :=
  ((C92_apart column valid same ks _ _ h).1 ⟨le_refl _, List.Pairwise.nil, fun r hr => by simp [start] at hr⟩).2

example : (run (fun _ => true) (· == ·) (start 3 : Book Nat) [.lines ["a".toList] 1 1, .chart [] [] [] "T".toList "x".toList]).1.charts = [(some "T".toList, ⟨1, 3, 1, 3⟩)] := by decide +kernel

/-! ### Matrices -/

private theorem labelsRight_spec (ls : List Driver.Str) : ∀ (s : Sheet V) (r c : Int), (∀ (j : Nat) l, ls[j]? = some l → labelsRight s r c ls r (c + j) = some (.text l)) ∧
    ∀ r' c', (r' ≠ r ∨ c' < c ∨ c + ls.length ≤ c') → labelsRight s r c ls r' c' = s r' c' := by
  induction ls with
  | nil => intro s r c; exact ⟨fun i v h => by simp at h, fun r' c' _ => rfl⟩
  | cons v vs ih =>
    intro s r c
    obtain ⟨h1, h2⟩ := ih (put s r c (.text v)) r (c + 1)
    refine ⟨fun i w hw => ?_, fun r' c' h => ?_⟩
    · cases i with
      | zero =>
        simp only [List.getElem?_cons_zero, Option.some.injEq] at hw
        subst hw
        rw [labelsRight, h2 _ _ (Or.inr (Or.inl (by push_cast; omega)))]
        simp [put]
      | succ i =>
        rw [List.getElem?_cons_succ] at hw
        rw [labelsRight, show c + ((i + 1 : Nat) : Int) = c + 1 + i by push_cast; omega]
        exact h1 i w hw
    · rw [List.length_cons] at h
      rw [labelsRight, h2 _ _ (by push_cast at h; omega), put, if_neg (by push_cast at h; omega)]

private theorem linesDown_spec (ls : List Driver.Str) : ∀ (s : Sheet V) (r c : Int), (∀ (j : Nat) l, ls[j]? = some l → linesDown s r c ls (r + j) c = some (.text l)) ∧
    ∀ r' c', (c' ≠ c ∨ r' < r ∨ r + ls.length ≤ r') → linesDown s r c ls r' c' = s r' c' := by
  induction ls with
  | nil => intro s r c; exact ⟨fun i v h => by simp at h, fun r' c' _ => rfl⟩
  | cons v vs ih =>
    intro s r c
    obtain ⟨h1, h2⟩ := ih (put s r c (.text v)) (r + 1) c
    refine ⟨fun i w hw => ?_, fun r' c' h => ?_⟩
    · cases i with
      | zero =>
        simp only [List.getElem?_cons_zero, Option.some.injEq] at hw
        subst hw
        rw [linesDown, h2 _ _ (Or.inr (Or.inl (by push_cast; omega)))]
        simp [put]
      | succ i =>
        rw [List.getElem?_cons_succ] at hw
        rw [linesDown, show r + ((i + 1 : Nat) : Int) = r + 1 + i by push_cast; omega]
        exact h1 i w hw
    · rw [List.length_cons] at h
      rw [linesDown, h2 _ _ (by push_cast at h; omega), put, if_neg (by push_cast at h; omega)]

private theorem rowsDown_spec (vs : List (List V)) : ∀ (s : Sheet V) (r c : Int) (ls : List Driver.Str), vs.length ≤ ls.length →
    (rowsDown s r c ls vs).2 = true ∧
    (∀ (i : Nat) l, ls[i]? = some l → i < vs.length → (rowsDown s r c ls vs).1 (r + i) c = some (.text l)) ∧
    (∀ (i : Nat) row, vs[i]? = some row → ∀ (j : Nat) v, row[j]? = some v → (rowsDown s r c ls vs).1 (r + i) (c + 1 + j) = some (.number v)) ∧
    ∀ r' c', ¬(∃ (i : Nat) (row : List V), vs[i]? = some row ∧ r' = r + i ∧ c ≤ c' ∧ c' ≤ c + row.length) → (rowsDown s r c ls vs).1 r' c' = s r' c' := by
  induction vs with
  | nil => intro s r c ls _; cases ls <;> exact ⟨by simp [rowsDown], by simp, by simp, fun _ _ _ => by simp [rowsDown]⟩
  | cons v vs ih =>
    intro s r c ls hl
    cases ls with
    | nil => simp at hl
    | cons l ls =>
      obtain ⟨h1, h2, h3, h4⟩ := ih (toRight s r c l v) (r + 1) c ls (by simpa using hl)
      obtain ⟨d1, d2, d3⟩ := toRight_spec s r c l v
      have above : ∀ c', (rowsDown (toRight s r c l v) (r + 1) c ls vs).1 r c' = toRight s r c l v r c' := fun c' => h4 _ _ fun ⟨i, row, _, hr, _⟩ => by omega
      rw [rowsDown]
      refine ⟨h1, fun j l' hl' hj => ?_, fun j vec hvec i w hw => ?_, fun r' c' h => ?_⟩
      · cases j with
        | zero =>
          simp only [List.getElem?_cons_zero, Option.some.injEq] at hl'
          subst hl'
          rw [show r + ((0 : Nat) : Int) = r by simp, above]
          exact d1
        | succ j =>
          rw [List.getElem?_cons_succ] at hl'
          rw [show r + ((j + 1 : Nat) : Int) = r + 1 + j by push_cast; omega]
          exact h2 j l' hl' (by simpa using hj)
      · cases j with
        | zero =>
          simp only [List.getElem?_cons_zero, Option.some.injEq] at hvec
          subst hvec
          rw [show r + ((0 : Nat) : Int) = r by simp, above]
          exact d2 i w hw
        | succ j =>
          rw [List.getElem?_cons_succ] at hvec
          rw [show r + ((j + 1 : Nat) : Int) = r + 1 + j by push_cast; omega]
          exact h3 j vec hvec i w hw
      · rw [h4 r' c' fun ⟨i, row, hi, hr, hc⟩ => h ⟨i + 1, row, by simpa using hi, by push_cast; omega, hc⟩]
        refine d3 r' c' ?_
        by_contra h'
        exact h ⟨0, v, rfl, by push_cast; omega, by omega, by omega⟩

private theorem rowsDown_short (vs : List (List V)) : ∀ (s : Sheet V) (r c : Int) (ls : List Driver.Str), ls.length < vs.length → (rowsDown s r c ls vs).2 = false := by
  induction vs with
  | nil => intro s r c ls h; simp at h
  | cons v vs ih =>
    intro s r c ls h
    cases ls with
    | nil => rfl
    | cons l ls => rw [rowsDown]; exact ih _ _ _ _ (by simpa using h)

/-- A labelled matrix in a sheet whose corner is a cell: the labels of columns right of the corner, those of rows below it, the values between, and nothing else. -/
structure MatrixData (s : Sheet V) (r c : Int) (m : List (List V)) (rowLabels colLabels : List Driver.Str) : Prop where
  columns : ∀ (j : Nat) l, colLabels[j]? = some l → s r (c + 1 + j) = some (.text l)
  rows : ∀ (i : Nat) l, rowLabels[i]? = some l → i < m.length → s (r + 1 + i) c = some (.text l)
  values : ∀ (i : Nat) row, m[i]? = some row → ∀ (j : Nat) v, row[j]? = some v → s (r + 1 + i) (c + 1 + j) = some (.number v)
  rest : ∀ r' c', ¬((r' = r ∧ c < c' ∧ c' ≤ c + colLabels.length) ∨ ∃ (i : Nat) (row : List V), m[i]? = some row ∧ r' = r + 1 + i ∧ c ≤ c' ∧ c' ≤ c + row.length) → s r' c' = none

/-- C92, matrices: with a label for each row and a free name, one new sheet of this name has the labels and the values, and nothing else changes. -/
theorem C92_matrix (valid : Driver.Str → Bool) (same : Driver.Str → Driver.Str → Bool) (b : Book V) (m : List (List V)) (name : Driver.Str) (rowLabels colLabels : List Driver.Str) (r c : Int)
    (hl : m.length ≤ rowLabels.length) (hf : free valid same b name = true) :
    ∃ s, addMatrix valid same b m name rowLabels colLabels r c = ({ b with sheets := b.sheets ++ [(some name, s)] }, .ok) ∧ MatrixData s r c m rowLabels colLabels := by
  obtain ⟨h1, h2, h3, h4⟩ := rowsDown_spec m (labelsRight (fun _ _ => none : Sheet V) r (c + 1) colLabels) (r + 1) c rowLabels hl
  obtain ⟨d1, d2⟩ := labelsRight_spec colLabels (fun _ _ => none : Sheet V) r (c + 1)
  refine ⟨_, by rw [addMatrix, addSheet, if_pos hf, if_pos h1], fun j l hj => ?_, h2, h3, fun r' c' h => ?_⟩
  · rw [h4 _ _ fun ⟨i, row, _, hr, _⟩ => by omega]
    exact d1 j l hj
  · rw [h4 _ _ fun h' => h (Or.inr h'), d2]
    by_contra h'
    exact h (Or.inl (by omega))

example : let p := addMatrix (fun _ => true) (· == ·) (start 1 : Book Nat) [[1, 2], [3, 4]] "M".toList ["r".toList, "s".toList] ["a".toList, "b".toList] 5 2
    p.2 = .ok ∧ p.1.sheets.map Prod.fst = [some "M".toList] ∧ p.1.sheets.map (fun s => (s.2 5 3, s.2 7 2)) = [(some (.text "a".toList), some (.text "s".toList))] ∧
      p.1.sheets.map (fun s => (s.2 7 4, s.2 5 2)) = [(some (.number 4), none)] := by
  decide +kernel

/-- C92 fails with fewer labels than rows: the labels are read behind their end. -/
theorem C92_row_labels_violated (valid : Driver.Str → Bool) (same : Driver.Str → Driver.Str → Bool) (b : Book V) (m : List (List V)) (name : Driver.Str) (rowLabels colLabels : List Driver.Str)
    (r c : Int) (hl : rowLabels.length < m.length) (hf : free valid same b name = true) : (addMatrix valid same b m name rowLabels colLabels r c).2 = .undefined := by
  rw [addMatrix, addSheet, if_pos hf, if_neg (by rw [rowsDown_short m _ _ _ rowLabels hl]; decide)]

example : (addMatrix (fun _ => true) (· == ·) (start 1 : Book Nat) [[1, 2], [3, 4]] "M".toList ["r".toList] ["a".toList, "b".toList] 1 1).2 = .undefined := by decide +kernel

/-- C92, matrices without labels: the values begin one column to the right of the given one, which has empty texts. -/
theorem C92_plain (valid : Driver.Str → Bool) (same : Driver.Str → Driver.Str → Bool) (b : Book V) (m : List (List V)) (name : Driver.Str) (r c : Int) (hf : free valid same b name = true) :
    ∃ s, addPlain valid same b m name r c = ({ b with sheets := b.sheets ++ [(some name, s)] }, .ok) ∧
      (∀ (i : Nat), i < m.length → s (r + i) c = some (.text [])) ∧
      (∀ (i : Nat) row, m[i]? = some row → ∀ (j : Nat) v, row[j]? = some v → s (r + i) (c + 1 + j) = some (.number v)) ∧
      ∀ r' c', ¬(∃ (i : Nat) (row : List V), m[i]? = some row ∧ r' = r + i ∧ c ≤ c' ∧ c' ≤ c + row.length) → s r' c' = none := by
  obtain ⟨h1, h2, h3, h4⟩ := rowsDown_spec m (fun _ _ => none : Sheet V) r c (List.replicate m.length []) (by simp)
  exact ⟨_, by rw [addPlain, addSheet, if_pos hf, if_pos h1], fun i hi => h2 i [] (by simp [hi]) hi, h3, h4⟩

example : let p := addPlain (fun _ => true) (· == ·) (start 1 : Book Nat) [[1, 2], [3, 4]] "M".toList 1 1
    p.2 = .ok ∧ p.1.sheets.map (fun s => (s.2 1 1, s.2 1 2, s.2 2 3, s.2 3 1)) = [(some (.text []), some (.number 1), some (.number 4), none)] := by decide +kernel

/-- C92, vectors: they are matrices of one row. -/
theorem C92_vector (valid : Driver.Str → Bool) (same : Driver.Str → Driver.Str → Bool) (b : Book V) (v : List V) (name rowLabel : Driver.Str) (colLabels : List Driver.Str) (r c : Int)
    (hf : free valid same b name = true) :
    (∃ s, addVector valid same b v name rowLabel colLabels r c = ({ b with sheets := b.sheets ++ [(some name, s)] }, .ok) ∧ s (r + 1) c = some (.text rowLabel) ∧
      (∀ (j : Nat) l, colLabels[j]? = some l → s r (c + 1 + j) = some (.text l)) ∧ ∀ (j : Nat) a, v[j]? = some a → s (r + 1) (c + 1 + j) = some (.number a)) ∧
    ∃ s, addPlainVector valid same b v name r c = ({ b with sheets := b.sheets ++ [(some name, s)] }, .ok) ∧ ∀ (j : Nat) a, v[j]? = some a → s r (c + 1 + j) = some (.number a) := by
  obtain ⟨s, hs, hm⟩ := C92_matrix valid same b [v] name [rowLabel] colLabels r c (by simp) hf
  obtain ⟨s', hs', -, hm', -⟩ := C92_plain valid same b [v] name r c hf
  refine ⟨⟨s, hs, ?_, hm.columns, fun j a hj => ?_⟩, s', hs', fun j a hj => ?_⟩
  · have := hm.rows 0 rowLabel rfl (by simp)
    simpa using this
  · have := hm.values 0 v rfl j a hj
    simpa using this
  · have := hm' 0 v rfl j a hj
    simpa using this

example : (addVector (fun _ => true) (· == ·) (start 1 : Book Nat) [1, 2] "V".toList "r".toList ["a".toList, "b".toList] 1 1).1.sheets.map (fun s => (s.2 2 1, s.2 2 3, s.2 1 3))
    = [(some (.text "r".toList), some (.number 2), some (.text "b".toList))] := by decide +kernel

/-- C92, texts: they are one below the other in a new sheet, which has no other cells. -/
theorem C92_lines (b : Book V) (ls : List Driver.Str) (r c : Int) : ∃ s, printLines b ls r c = { b with sheets := b.sheets ++ [(none, s)] } ∧
    (∀ (i : Nat) l, ls[i]? = some l → s (r + i) c = some (.text l)) ∧ ∀ r' c', (c' ≠ c ∨ r' < r ∨ r + ls.length ≤ r') → s r' c' = none :=
  ⟨_, rfl, linesDown_spec ls (fun _ _ => none) r c⟩

example : (printLines (start 1 : Book Nat) ["a".toList, "b".toList] 2 3).sheets.map (fun s => (s.2 2 3, s.2 3 3, s.2 4 3)) = [(some (.text "a".toList), some (.text "b".toList), none)] := by
  decide +kernel

/-- C92 fails for names that are used: the second matrix of a name is not written, an empty sheet without that name stays in the book, and an exception ends the call; the second chart of a
title stays under another name. All calls that leave out the name use the same one. -/
theorem C92_names_violated (valid : Driver.Str → Bool) (same : Driver.Str → Driver.Str → Bool) (hrefl : ∀ n, same n n = true) (b b₁ : Book V) (m m' : List (List V)) (name : Driver.Str)
    (rl cl rl' cl' : List Driver.Str) (r c r' c' : Int) (x x' : List V) (vs vs' : List (List V)) (xt xt' : Driver.Str) :
    (addMatrix valid same b m name rl cl r c = (b₁, .ok) →
      addMatrix valid same b₁ m' name rl' cl' r' c' = ({ b₁ with sheets := b₁.sheets ++ [(none, fun _ _ => none)] }, .throws)) ∧
    (createChart valid same b x rl vs name xt = (b₁, .ok) → vs'.length ≤ rl'.length →
      (createChart valid same b₁ x' rl' vs' name xt').2 = .throws ∧ (createChart valid same b₁ x' rl' vs' name xt').1.charts.map Prod.fst = b₁.charts.map Prod.fst ++ [none]) := by
  refine ⟨fun h => ?_, fun h hl => ?_⟩
  · have hf : free valid same b₁ name = false := by
      simp only [addMatrix, addSheet] at h
      split at h
      · simp only [Prod.mk.injEq] at h
        rw [← h.1]
        simp [free, hrefl]
      · simp at h
    rw [addMatrix, addSheet, if_neg (by rw [hf]; decide)]
  · have hf : free valid same b₁ name = false := by
      simp only [createChart] at h
      split at h
      · split at h
        · simp only [Prod.mk.injEq] at h
          rw [← h.1]
          simp [free, hrefl]
        · simp at h
      · simp at h
    refine ⟨((C92_chart valid same b₁ x' rl' vs' name xt' hl).2.2.2.2.2 hf).1, ?_⟩
    have e1 : (columns (toDown b₁.data 1 b₁.cur xt' x') (b₁.cur + 1) rl' vs').2.2 = true := by rw [(columns_spec vs' _ _ rl' hl).1]
    have hfree : ∀ d k, free valid same ({ b₁ with data := d, cur := k } : Book V) name = free valid same b₁ name := fun _ _ => rfl
    simp only [createChart, e1, if_true, hfree, hf, Bool.false_eq_true, if_false, List.map_append, List.map_cons, List.map_nil]

example : let b := (addMatrix (fun _ => true) (· == ·) (start 1 : Book Nat) [[1]] "Matrix".toList ["r".toList] ["a".toList] 1 1).1
    let p := addMatrix (fun _ => true) (· == ·) b [[2]] "Matrix".toList ["r".toList] ["a".toList] 1 1
    p.2 = .throws ∧ p.1.sheets.map (fun s => (s.1, s.2 2 2)) = [(some "Matrix".toList, some (.number 1)), (none, none)] := by decide +kernel

/-- C92, names: no matrix and no chart takes the name of the sheet of the data. -/
theorem C92_data_name (valid : Driver.Str → Bool) (same : Driver.Str → Driver.Str → Bool) (hrefl : ∀ n, same n n = true) (b : Book V) (m : List (List V)) (rl cl : List Driver.Str) (r c : Int)
    (x : List V) (labels : List Driver.Str) (vs : List (List V)) (xt : Driver.Str) (hl : vs.length ≤ labels.length) :
    (addMatrix valid same b m "Chart Data".toList rl cl r c).2 = .throws ∧ (createChart valid same b x labels vs "Chart Data".toList xt).2 = .throws := by
  have hf : free valid same b dataName = false := by simp [free, hrefl]
  refine ⟨?_, ((C92_chart valid same b x labels vs dataName xt hl).2.2.2.2.2 hf).1⟩
  show (addMatrix valid same b m dataName rl cl r c).2 = .throws
  rw [addMatrix, addSheet, if_neg (by rw [hf]; decide)]

example : (addMatrix (fun _ => true) (· == ·) (start 1 : Book Nat) [[1]] "Chart Data".toList ["r".toList] ["a".toList] 1 1).2 = .throws := by decide +kernel

end Dal
