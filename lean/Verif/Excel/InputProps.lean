import Verif.Excel.InputLemmas

/-! # C81: inputs from Excel -/

namespace Dal
open Excel Strings DateText Date Dict

/-- A number is read as an integer exactly when it is within 2e-14 of it and in range, and then as that integer. -/
theorem C81_int (q : Rat) (n : Int) : toInt (.one (.num q)) = .ok n ↔ |q| < 2147483647 ∧ |q - n| < 2 / 100000000000000 := by
  show (Out.of (asInt q)).bind _ = _ ↔ _
  rw [bind_ok]
  constructor
  · rintro ⟨m, hm, h⟩
    rw [of_ok] at hm
    split_ifs at h with hz
    obtain rfl := Out.ok.inj h
    simp only [isZero, Bool.and_eq_true, decide_eq_true_eq] at hz
    exact ⟨asInt_le hm, abs_lt.2 ⟨by linarith [hz.2], hz.1⟩⟩
  · rintro ⟨h1, h2⟩
    obtain ⟨h3, h4⟩ := abs_lt.1 h2
    refine ⟨n, by rw [of_ok]; exact asInt_near h1 h4 (by linarith), ?_⟩
    have hz : isZero (q - n) = true := by
      simp only [isZero, Bool.and_eq_true, decide_eq_true_eq]
      exact ⟨h4, by linarith⟩
    rw [if_pos hz]

example : toInt (.one (.num (-3))) = .ok (-3) := (C81_int (-3) (-3)).2 (by constructor <;> norm_num)

/-- An array of one cell is read as the cell; a larger or an empty array is no single value. -/
theorem C81_single (r c alloc : Nat) (cell : Nat → Scalar) (ha : r * c ≤ alloc) :
    (r * c = 1 →
      toDouble (.multi r c alloc cell) = toDouble (.one (cell 0)) ∧ toInt (.multi r c alloc cell) = toInt (.one (cell 0)) ∧
      toTruth (.multi r c alloc cell) = toTruth (.one (cell 0)) ∧ toStr false (.multi r c alloc cell) = toStr false (.one (cell 0)) ∧
      toCell false (.multi r c alloc cell) = toCell false (.one (cell 0)) ∧ toDate (.multi r c alloc cell) = toDate (.one (cell 0))) ∧
    (r * c ≠ 1 → ∀ opt : Bool,
      toDouble (.multi r c alloc cell) = .throws ∧ toInt (.multi r c alloc cell) = .throws ∧ toTruth (.multi r c alloc cell) = .throws ∧
      toStr opt (.multi r c alloc cell) = .throws ∧ toCell opt (.multi r c alloc cell) = .throws ∧ toDate (.multi r c alloc cell) = .throws) := by
  constructor
  · intro h
    have hs : ∀ {α : Type} (f : Scalar → Out α), single f (.multi r c alloc cell) = f (cell 0) := by
      intro α f
      rw [single, if_pos h, if_neg (by omega)]
    have hc : toCell false (.multi r c alloc cell) = toCell false (.one (cell 0)) := hs _
    refine ⟨hs _, hs _, hs _, hs _, hc, ?_⟩
    rw [toDate, toDate, toDateOpt, toDateOpt, hc]
  · intro h opt
    have hs : ∀ {α : Type} (f : Scalar → Out α), single f (.multi r c alloc cell) = .throws := by
      intro α f
      rw [single, if_neg h]
    have hc : ∀ opt : Bool, toCell opt (.multi r c alloc cell) = .throws := fun _ => hs _
    refine ⟨hs _, hs _, hs _, hs _, hc _, ?_⟩
    rw [toDate, toDateOpt, hc]; rfl

example : toDouble (.multi 1 1 1 fun _ => .num 7) = .ok 7 ∧ toDouble (.multi 1 2 2 fun _ => .num 7) = .throws := by decide

/-- The kinds of cells the readers accept: numbers for a number, truth values and the numbers 0 and 1 for a truth value, texts for a text. -/
theorem C81_kinds (s : Scalar) :
    (∀ q, toDouble (.one s) = .ok q ↔ s = .num q) ∧
    (∀ b, toTruth (.one s) = .ok b ↔ s = .bool b ∨ (s = .num 0 ∧ b = false) ∨ (s = .num 1 ∧ b = true)) ∧
    (∀ t, toStr false (.one s) = .ok t ↔ ∃ u, s = .str u ∧ fromPascal u = t) := by
  refine ⟨?_, ?_, ?_⟩
  · intro q; cases s <;> simp [toDouble, single, doubleOf]
  · intro b
    cases s with
    | num q =>
      simp only [toTruth, single, boolOf, Scalar.num.injEq, reduceCtorEq, false_or]
      by_cases h0 : q = 0
      · subst h0; cases b <;> simp
      · by_cases h1 : q = 1
        · subst h1; cases b <;> simp
        · simp [h0, h1]
    | _ => simp [toTruth, single, boolOf]
  · intro t; cases s <;> simp [toStr, stringOf]

/-- C81, cells: a visible cell is read as a cell of its kind with its content, and nothing else is; an empty one is read as empty where that is allowed. -/
theorem C81_cells (s : Scalar) :
    (∀ opt : Bool, blank s = false → ∀ c, toCell opt (.one s) = .ok c ↔ (∃ u, s = .str u ∧ c = .str (fromPascal u)) ∨ (∃ q, s = .num q ∧ c = .num q) ∨ (∃ b, s = .bool b ∧ c = .bool b)) ∧
    (blank s = true → toCell true (.one s) = .ok .blank ∧ toCell false (.one s) = .throws) := by
  constructor
  · intro opt hb c
    simp only [toCell, cellOf, hb, Bool.false_eq_true, if_false]
    cases s <;> simp [eq_comm]
  · intro hb
    simp [toCell, cellOf, hb]

example : toCell false (.one (.bool true)) = .ok (.bool true) ∧ toCell false (.one (.str [65])) = .ok (.str ['A']) := by decide +kernel

/-- A missing argument is no value where the argument is optional; any other argument is read as if it was required. -/
theorem C81_optional {α : Type} (f : Oper → Out α) (s : Scalar) :
    (s = .missing ∨ s = .nil → optional f (.one s) = .ok none) ∧
    (s ≠ .missing → s ≠ .nil → ∀ a, optional f (.one s) = .ok (some a) ↔ f (.one s) = .ok a) := by
  constructor
  · rintro (rfl | rfl) <;> rfl
  · intro h1 h2 a
    have : s.missing' = false := by cases s <;> simp_all [Scalar.missing']
    unfold Excel.optional
    dsimp only
    rw [this]
    simp [map_ok]

/-- The first `k` of `n` cells are the visible ones before the first blank. -/
def VisiblePrefix (cell : Nat → Scalar) (n k : Nat) : Prop :=
  k ≤ n ∧ (∀ i : Nat, i < k → blank (cell i) = false) ∧ (k < n → blank (cell k) = true)

theorem visiblePrefix_unique {cell : Nat → Scalar} {n k k' : Nat} (h : VisiblePrefix cell n k) (h' : VisiblePrefix cell n k') : k = k' := by
  obtain ⟨a1, a2, a3⟩ := h
  obtain ⟨b1, b2, b3⟩ := h'
  rcases lt_trichotomy k k' with hlt | heq | hlt
  · have h1 := b2 k hlt
    rw [a3 (by omega)] at h1; cases h1
  · exact heq
  · have h1 := a2 k' hlt
    rw [b3 (by omega)] at h1; cases h1

theorem takeWhile_prefix (cell : Nat → Scalar) (n : Nat) : ∀ i : Nat,
    VisiblePrefix (fun k => cell (i + k)) n ((cells cell i n).takeWhile fun s => !blank s).length ∧
    ∀ k : Nat, k < ((cells cell i n).takeWhile fun s => !blank s).length →
      ((cells cell i n).takeWhile fun s => !blank s)[k]? = some (cell (i + k)) := by
  induction n with
  | zero => intro i; refine ⟨⟨le_refl _, ?_, ?_⟩, ?_⟩ <;> simp [cells]
  | succ n ih =>
    intro i
    rw [cells_succ]
    by_cases hb : blank (cell i) = true
    · rw [List.takeWhile_cons_of_neg (by simp [hb])]
      refine ⟨⟨Nat.zero_le _, ?_, ?_⟩, ?_⟩ <;> simp [hb]
    · rw [List.takeWhile_cons_of_pos (by simp [hb]), List.length_cons]
      obtain ⟨⟨h1, h2, h3⟩, h4⟩ := ih (i + 1)
      refine ⟨⟨by omega, ?_, ?_⟩, ?_⟩
      · intro k hk
        cases k with
        | zero => simpa using hb
        | succ k =>
          show blank (cell (i + (k + 1))) = false
          rw [show i + (k + 1) = i + 1 + k by omega]
          exact h2 k (by omega)
      · intro hk
        show blank (cell (i + (_ + 1))) = true
        rw [Nat.add_left_comm, ← Nat.add_assoc, Nat.add_comm _ i, Nat.add_right_comm]
        exact h3 (by omega)
      · intro k hk
        cases k with
        | zero => rfl
        | succ k =>
          rw [List.getElem?_cons_succ, h4 k (by omega), Nat.add_right_comm]; rfl

/-- A row or a column of cells is read as a vector: its cells up to the first blank one, each read on its own; a vector without entries is accepted only where it is optional. -/
theorem C81_vector {α : Type} (opt : Bool) (f : Scalar → Out α) (r c alloc : Nat) (cell : Nat → Scalar) (hv : r = 1 ∨ c = 1) (ha : r * c ≤ alloc)
    (l : List α) : readVector opt f (.multi r c alloc cell) = .ok l ↔
      VisiblePrefix cell (r * c) l.length ∧ (∀ (i : Nat) (a : α), l[i]? = some a → f (cell i) = .ok a) ∧ (l ≠ [] ∨ opt = true) := by
  rw [readVector, if_pos hv, if_neg (by omega), bind_ok, readFrom_eq]
  obtain ⟨hp, hg⟩ := takeWhile_prefix cell (r * c) 0
  simp only [Nat.zero_add] at hp hg
  have hcells : (fun k => cell k) = cell := rfl
  rw [hcells] at hp
  constructor
  · rintro ⟨l', hl, h⟩
    split_ifs at h with hc
    obtain rfl := Out.ok.inj h
    obtain ⟨h1, h2⟩ := (each_ok _ _ _).1 hl
    refine ⟨by rw [h1]; exact hp, ?_, ?_⟩
    · intro i a hi
      have hlt : i < l'.length := by
        by_contra hge
        rw [List.getElem?_eq_none (by omega)] at hi; cases hi
      exact h2 i _ a (hg i (by omega)) hi
    · cases l' with
      | nil => right; simpa using hc
      | cons a t => left; simp
  · rintro ⟨h1, h2, h3⟩
    have hlen := visiblePrefix_unique h1 hp
    refine ⟨l, (each_ok _ _ _).2 ⟨hlen, ?_⟩, ?_⟩
    · intro i s a hs hl
      have hlt : i < l.length := by
        by_contra hge
        rw [List.getElem?_eq_none (by omega)] at hl; cases hl
      rw [hg i (by omega)] at hs
      rw [← Option.some.inj hs]
      exact h2 i a hl
    · have : ¬ (l.isEmpty = true ∧ (!opt) = true) := by
        rintro ⟨e1, e2⟩
        rcases h3 with h3 | h3
        · exact h3 (by simpa using e1)
        · simp [h3] at e2
      rw [if_neg this]

example : readVector false doubleOf (.multi 1 4 4 fun i => if i = 2 then .nil else .num i) = .ok [0, 1] := by decide

/-- In an array of at least two rows and columns, with something visible in the first corner or next to it, the block that is read is the smallest one with nothing visible
in the row below it and in the column to its right; with nothing visible there it is empty. -/
theorem C81_block (nr nc : Nat) (cell : Nat → Scalar) (hr : 2 ≤ nr) (hc : 2 ≤ nc) :
    (blank (cell 0) = true ∧ blank (cell 1) = true ∧ blank (cell nc) = true → nonblankSize nr nc cell = some (0, 0)) ∧
    (¬ (blank (cell 0) = true ∧ blank (cell 1) = true ∧ blank (cell nc) = true) → ∀ r c : Nat, nonblankSize nr nc cell = some (r, c) ↔
      ClosedBlock cell nr nc r c ∧ ∀ r' c' : Nat, ClosedBlock cell nr nc r' c' → r ≤ r' ∧ c ≤ c') := by
  have h0 : nr * nc ≠ 0 := Nat.mul_ne_zero (by omega) (by omega)
  have hb : ((blank (cell 0) && blank (cell 1) && blank (cell nc)) = true) ↔ (blank (cell 0) = true ∧ blank (cell 1) = true ∧ blank (cell nc) = true) := by
    simp only [Bool.and_eq_true, and_assoc]
  unfold nonblankSize
  rw [if_neg h0, if_neg (by omega)]
  constructor
  · intro h
    rw [if_pos (hb.2 h)]
  · intro h r c
    rw [if_neg (fun e => h (hb.1 e))]
    obtain ⟨r0, c0, hg, hcl, hmin⟩ := grow_spec cell nr nc (nr + nc) 1 1 (le_refl _) (by omega) (le_refl _) (by omega) (by omega)
    rw [hg]
    constructor
    · intro e
      obtain ⟨rfl, rfl⟩ := Prod.mk.inj (Option.some.inj e)
      exact ⟨hcl, fun r' c' h' => hmin r' c' h' h'.1 h'.2.2.1⟩
    · rintro ⟨h1, h2⟩
      obtain ⟨e1, e2⟩ := h2 r0 c0 hcl
      obtain ⟨e3, e4⟩ := hmin r c h1 h1.1 h1.2.2.1
      rw [show r = r0 by omega, show c = c0 by omega]

example : nonblankSize 3 3 (fun k => if k = 1 ∨ k = 4 ∨ k = 8 then .num 1 else .nil) = some (2, 2) := by decide

/-- A rectangle of visible cells in the first corner of an otherwise blank array is read whole, whatever the size of the array. -/
theorem C81_rectangle (nr nc r c : Nat) (cell : Nat → Scalar) (h1 : 1 ≤ r) (h2 : r ≤ nr) (h3 : 1 ≤ c) (h4 : c ≤ nc)
    (hv : ∀ i j : Nat, i < nr → j < nc → (blank (cell (i * nc + j)) = false ↔ i < r ∧ j < c)) :
    nonblankSize nr nc cell = some (r, c) := by
  have hbt : ∀ i j : Nat, i < nr → j < nc → ¬ (i < r ∧ j < c) → blank (cell (i * nc + j)) = true := by
    intro i j hi hj hn
    by_contra hb
    exact hn ((hv i j hi hj).1 (by simpa using hb))
  by_cases hd : nr = 1 ∨ nc = 1
  · have h0 : nr * nc ≠ 0 := Nat.mul_ne_zero (by omega) (by omega)
    unfold nonblankSize
    rw [if_neg h0, if_pos hd]
    have hp := (takeWhile_prefix cell (nr * nc) 0).1
    simp only [Nat.zero_add] at hp
    rw [show (fun k => cell k) = cell from rfl] at hp
    rw [firstBlank_eq, Nat.zero_add]
    have huniq : ∀ k : Nat, VisiblePrefix cell (nr * nc) k → ((cells cell 0 (nr * nc)).takeWhile fun s => !blank s).length = k :=
      fun k hk => visiblePrefix_unique hp hk
    by_cases hr1 : nr = 1
    · subst hr1
      have hr : r = 1 := by omega
      subst hr
      rw [huniq c ⟨by omega, ?_, ?_⟩]
      · simp
      · intro i hi
        have := (hv 0 i (by omega) (by omega)).2 ⟨by omega, hi⟩
        simpa using this
      · intro hlt
        have := hbt 0 c (by omega) (by omega) (by omega)
        simpa using this
    · have hc1 : nc = 1 := by omega
      subst hc1
      have hc : c = 1 := by omega
      subst hc
      rw [huniq r ⟨by omega, ?_, ?_⟩]
      · simp [hr1]
      · intro i hi
        have := (hv i 0 (by omega) (by omega)).2 ⟨hi, by omega⟩
        simpa using this
      · intro hlt
        have := hbt r 0 (by omega) (by omega) (by omega)
        simpa using this
  · have hb := C81_block nr nc cell (by omega) (by omega)
    have h00 := (hv 0 0 (by omega) (by omega)).2 ⟨by omega, by omega⟩
    simp only [Nat.zero_mul, Nat.zero_add] at h00
    refine (hb.2 (fun e => by rw [h00] at e; exact absurd e.1 (by decide)) r c).2 ⟨⟨h1, h2, h3, h4, ?_, ?_⟩, ?_⟩
    · intro hlt j hj; exact hbt r j hlt (by omega) (by omega)
    · intro hlt i hi; exact hbt i c (by omega) hlt (by omega)
    · rintro r' c' ⟨q1, q2, q3, q4, q5, q6⟩
      have hr' : r ≤ r' := by
        by_contra hlt
        have ht := q5 (by omega) 0 (by omega)
        rw [(hv r' 0 (by omega) (by omega)).2 ⟨by omega, by omega⟩] at ht
        cases ht
      have hc' : c ≤ c' := by
        by_contra hlt
        have ht := q6 (by omega) 0 (by omega)
        rw [(hv 0 c' (by omega) (by omega)).2 ⟨by omega, by omega⟩] at ht
        cases ht
      exact ⟨hr', hc'⟩

example : nonblankSize 3 4 (fun k => if k / 4 < 2 ∧ k % 4 < 3 then .num k else .nil) = some (2, 3) := by decide

/-- Reading a matrix: the block to be read, row by row, with each entry read on its own. -/
theorem C81_matrix {α : Type} (opt greedy : Bool) (f : Scalar → Out α) (nr nc alloc : Nat) (cell : Nat → Scalar) (ha : nr * nc ≤ alloc)
    (r c : Nat) (hs : if greedy = true then (r, c) = (nr, nc) else nonblankSize nr nc cell = some (r, c)) (h0 : r * c ≠ 0)
    (m : Nat × Nat × List (List α)) :
    toMatrix opt greedy f (.multi nr nc alloc cell) = .ok m ↔
      m.1 = r ∧ m.2.1 = c ∧ m.2.2.length = r ∧ (∀ (i : Nat) (row : List α), m.2.2[i]? = some row → row.length = c ∧
        ∀ (j : Nat) (a : α), row[j]? = some a → f (cell (i * nc + j)) = .ok a) := by
  have hsz : (if greedy = true then some (nr, nc) else nonblankSize nr nc cell) = some (r, c) := by
    cases greedy with
    | true => simp only [if_true] at hs ⊢; rw [hs]
    | false => simpa using hs
  have hrows : ∀ (n i : Nat) (l : List (List α)), readRows f cell nc c n i = .ok l ↔ l.length = n ∧ ∀ (k : Nat) (row : List α), l[k]? = some row →
      row.length = c ∧ ∀ (j : Nat) (a : α), row[j]? = some a → f (cell ((i + k) * nc + j)) = .ok a := by
    intro n
    induction n with
    | zero =>
      intro i l
      rw [readRows]
      constructor
      · intro h
        obtain rfl := Out.ok.inj h
        simp
      · rintro ⟨h, _⟩
        rw [List.length_eq_zero_iff.1 h]
    | succ n ih =>
      intro i l
      rw [readRows, bind_ok]
      have hrow : ∀ row : List α, readRow f cell c (i * nc) = .ok row ↔ row.length = c ∧ ∀ (j : Nat) (a : α), row[j]? = some a → f (cell (i * nc + j)) = .ok a := by
        intro row
        rw [readRow_eq, each_ok]
        have hl : (cells cell (i * nc) c).length = c := by simp [cells]
        rw [hl]
        apply and_congr_right
        intro hlen
        constructor
        · intro h j a hj
          have hlt : j < c := by
            by_contra hge
            rw [List.getElem?_eq_none (by omega)] at hj; cases hj
          exact h j _ a (by simp [cells, hlt]) hj
        · intro h j s a hs hj
          have hlt : j < c := by
            by_contra hge
            rw [List.getElem?_eq_none (by omega)] at hs; cases hs
          have : s = cell (i * nc + j) := by simpa [cells, hlt] using hs.symm
          rw [this]
          exact h j a hj
      constructor
      · rintro ⟨row, h1, h2⟩
        obtain ⟨l', hl', rfl⟩ := map_ok.1 h2
        obtain ⟨g1, g2⟩ := (ih (i + 1) l').1 hl'
        refine ⟨by simp [g1], ?_⟩
        intro k row' hk
        cases k with
        | zero =>
          rw [List.getElem?_cons_zero] at hk
          rw [← Option.some.inj hk]
          exact (hrow row).1 h1
        | succ k =>
          rw [List.getElem?_cons_succ] at hk
          have := g2 k row' hk
          rwa [show i + 1 + k = i + (k + 1) by omega] at this
      · rintro ⟨h1, h2⟩
        cases l with
        | nil => simp at h1
        | cons row l' =>
          refine ⟨row, (hrow row).2 (h2 0 row rfl), map_ok.2 ⟨l', (ih (i + 1) l').2 ⟨by simpa using h1, ?_⟩, rfl⟩⟩
          intro k row' hk
          have := h2 (k + 1) row' (by simpa using hk)
          rwa [show i + (k + 1) = i + 1 + k by omega] at this
  unfold toMatrix
  dsimp only
  rw [if_neg (by omega), hsz]
  dsimp only
  rw [if_neg h0, map_ok]
  constructor
  · rintro ⟨l, hl, rfl⟩
    obtain ⟨g1, g2⟩ := (hrows r 0 l).1 hl
    refine ⟨rfl, rfl, g1, ?_⟩
    intro i row hi
    have := g2 i row hi
    rwa [Nat.zero_add] at this
  · obtain ⟨m1, m2, m3⟩ := m
    rintro ⟨rfl, rfl, g1, g2⟩
    refine ⟨m3, (hrows _ 0 m3).2 ⟨g1, ?_⟩, rfl⟩
    intro i row hi
    rw [Nat.zero_add]
    exact g2 i row hi

example : toMatrix false false doubleOf (.multi 3 3 9 fun k => if k / 3 < 2 ∧ k % 3 < 2 then .num k else .nil) = .ok (2, 2, [[0, 1], [3, 4]]) := by decide

/-- A record reads the entries of the matrix in its row. -/
theorem C81_extract {α : Type} (f : Scalar → Out α) (nr nc alloc : Nat) (cell : Nat → Scalar) (ha : nr * nc ≤ alloc) (h0 : nr * nc ≠ 0)
    (m : Nat × Nat × List (List α)) (hm : toMatrix false true f (.multi nr nc alloc cell) = .ok m)
    (i j : Nat) (row : List α) (a dflt : α) (hi : m.2.2[i]? = some row) (hj : row[j]? = some a) :
    extract f (.multi nr nc alloc cell) i j = .ok a ∧
    extractOr f (.multi nr nc alloc cell) i j dflt = .ok (if blank (cell (i * nc + j)) = true then dflt else a) := by
  obtain ⟨_, _, h3, h4⟩ := (C81_matrix false true f nr nc alloc cell ha nr nc rfl h0 m).1 hm
  obtain ⟨g1, g2⟩ := h4 i row hi
  have hilt : i < nr := by
    by_contra hge
    rw [List.getElem?_eq_none (by omega)] at hi; cases hi
  have hjlt : j < nc := by
    by_contra hge
    rw [List.getElem?_eq_none (by omega)] at hj; cases hj
  have hk : j + nc * i = i * nc + j := by rw [Nat.mul_comm, Nat.add_comm]
  constructor
  · simp only [extract]
    rw [if_neg (by omega), if_pos hjlt, hk]
    exact g2 j a hj
  · simp only [extractOr]
    rw [if_neg (by omega), if_neg (by omega), hk]
    by_cases hb : blank (cell (i * nc + j)) = true
    · rw [if_pos hb, if_pos hb]
    · rw [if_neg hb, if_neg hb]
      exact g2 j a hj

/-- Reading records: one record for each visible row, and at least one unless they are optional. -/
theorem C81_records {α : Type} (opt : Bool) (mk : Oper → Nat → Out α) (o : Oper) (n : Nat) (hn : rowsOf o = .ok n) (l : List α) :
    toRecords opt mk o = .ok l ↔ l.length = n ∧ (∀ (i : Nat) (a : α), l[i]? = some a → mk o i = .ok a) ∧ (l ≠ [] ∨ opt = true) := by
  have hfuel : n < recordFuel o := by
    cases o with
    | one s =>
      simp only [rowsOf] at hn
      split_ifs at hn
      rw [← Out.ok.inj hn]; exact Nat.zero_lt_one
    | multi nr nc alloc cell =>
      obtain ⟨r, c, hs, hr, _⟩ := nonblankSize_total nr nc cell
      simp only [rowsOf] at hn
      split_ifs at hn
      rw [hs] at hn
      obtain rfl := Out.ok.inj hn
      show r < nr + 1
      by_cases h0 : nr = 0
      · subst h0
        have : nonblankSize 0 nc cell = some (0, 0) := by simp [nonblankSize]
        rw [this] at hs
        obtain ⟨h1, h2⟩ := Prod.mk.inj (Option.some.inj hs)
        omega
      · omega
  have hfrom : ∀ (fuel row : Nat) (l : List α), n < fuel + row → row ≤ n → (recordsFrom mk o fuel row = .ok l ↔
      l.length + row = n ∧ ∀ (i : Nat) (a : α), l[i]? = some a → mk o (row + i) = .ok a) := by
    intro fuel
    induction fuel with
    | zero => intro row l h1 h2; omega
    | succ fuel ih =>
      intro row l h1 h2
      rw [recordsFrom, hn]
      simp only [Out.bind]
      by_cases hr : row < n
      · rw [if_pos hr]
        show (mk o row).bind _ = _ ↔ _
        rw [bind_ok]
        constructor
        · rintro ⟨a, ha, hl⟩
          obtain ⟨l', hl', rfl⟩ := map_ok.1 hl
          obtain ⟨g1, g2⟩ := (ih (row + 1) l' (by omega) (by omega)).1 hl'
          refine ⟨by rw [List.length_cons]; omega, ?_⟩
          intro i b hb
          cases i with
          | zero =>
            rw [List.getElem?_cons_zero] at hb
            rw [← Option.some.inj hb]; exact ha
          | succ i =>
            have := g2 i b (by simpa using hb)
            rwa [show row + 1 + i = row + (i + 1) by omega] at this
        · rintro ⟨g1, g2⟩
          cases l with
          | nil => simp only [List.length_nil] at g1; omega
          | cons a l' =>
            refine ⟨a, g2 0 a rfl, map_ok.2 ⟨l', (ih (row + 1) l' (by omega) (by omega)).2 ⟨by rw [List.length_cons] at g1; omega, ?_⟩, rfl⟩⟩
            intro i b hb
            have := g2 (i + 1) b (by simpa using hb)
            rwa [show row + (i + 1) = row + 1 + i by omega] at this
      · rw [if_neg hr]
        constructor
        · intro h
          obtain rfl := Out.ok.inj h
          exact ⟨by simp only [List.length_nil]; omega, by simp⟩
        · rintro ⟨g1, _⟩
          rw [List.length_eq_zero_iff.1 (show l.length = 0 by omega)]
  rw [toRecords, bind_ok]
  constructor
  · rintro ⟨l', hl, h⟩
    split_ifs at h with hc
    obtain rfl := Out.ok.inj h
    obtain ⟨g1, g2⟩ := (hfrom _ 0 l' (by omega) (by omega)).1 hl
    refine ⟨by omega, fun i a hi => by simpa using g2 i a hi, ?_⟩
    cases l' with
    | nil => right; simpa using hc
    | cons a t => left; simp
  · rintro ⟨h1, h2, h3⟩
    refine ⟨l, (hfrom _ 0 l (by omega) (by omega)).2 ⟨by omega, fun i a hi => by simpa using h2 i a hi⟩, ?_⟩
    have : ¬ ((!opt) = true ∧ l.isEmpty = true) := by
      rintro ⟨e1, e2⟩
      rcases h3 with h3 | h3
      · exact h3 (by simpa using e2)
      · simp [h3] at e1
    rw [if_neg this]

example : toRecords false (fun o i => extract doubleOf o i 1) (.multi 3 2 6 fun k => if k < 4 then .num k else .nil) = .ok [1, 3] := by decide

/-- A single row without anything visible in it still counts as a record, though the same cells are no matrix and no vector. -/
theorem C81_blank_record_violated (nc : Nat) (hc : 1 ≤ nc) (alloc : Nat) (ha : nc ≤ alloc) (cell : Nat → Scalar) (hb : ∀ k : Nat, blank (cell k) = true) :
    rowsOf (.multi 1 nc alloc cell) = .ok 1 ∧ toMatrix true false doubleOf (.multi 1 nc alloc cell) = .ok (0, 0, []) ∧
    readVector true doubleOf (.multi 1 nc alloc cell) = .ok [] := by
  have hs : nonblankSize 1 nc cell = some (1, 0) := by
    unfold nonblankSize
    rw [if_neg (by omega), if_pos (Or.inl rfl)]
    have : firstBlank cell (1 * nc) 0 = 0 := by
      rw [show 1 * nc = (nc - 1) + 1 by omega, firstBlank, if_pos (hb 0)]
    rw [this]; simp
  refine ⟨?_, ?_, ?_⟩
  · simp only [rowsOf]
    rw [if_neg (by omega), hs]
  · unfold toMatrix
    dsimp only
    rw [if_neg (by omega)]
    simp [hs]
  · rw [C81_vector true doubleOf 1 nc alloc cell (Or.inl rfl) (by omega)]
    exact ⟨⟨Nat.zero_le _, by simp, fun _ => hb 0⟩, by simp, Or.inr rfl⟩

example : rowsOf (.multi 1 3 3 fun _ => .nil) = .ok 1 := (C81_blank_record_violated 3 (by decide) 3 (by decide) _ fun _ => rfl).1

/-- A number is read as a date exactly when it is a whole number, and then as the date of that number in Excel. -/
theorem C81_date (q : Rat) (d : Date) : toDate (.one (.num q)) = .ok d ↔ ∃ n : Int, q = n ∧ |n| < 2147483647 ∧ d = fromExcel n := by
  have hc : toDate (.one (.num q)) = ((Out.of (asInt q)).bind fun n => if (n : Rat) = q then .ok (some (fromExcel n)) else .throws).bind Out.of := rfl
  rw [hc, bind_ok]
  constructor
  · rintro ⟨x, hx, hd⟩
    rw [bind_ok] at hx
    obtain ⟨n, hn, hx⟩ := hx
    rw [of_ok] at hn
    split_ifs at hx with he
    obtain rfl := Out.ok.inj hx
    refine ⟨n, he.symm, ?_, (Out.ok.inj hd).symm⟩
    have := asInt_le hn
    rw [← he] at this
    exact_mod_cast this
  · rintro ⟨n, rfl, hn, rfl⟩
    refine ⟨some (fromExcel n), ?_, rfl⟩
    rw [bind_ok]
    exact ⟨n, by rw [asInt_int n hn]; rfl, by simp⟩

/-- A number that is no date in range is read as the invalid date, without an error. -/
theorem C81_date_range_violated (n : Int) (hn : |n| < 2147483647) (hr : n ≤ excelOffset ∨ excelOffset + 65536 ≤ n) :
    toDate (.one (.num n)) = .ok ⟨0⟩ := by
  rw [C81_date]
  refine ⟨n, rfl, hn, ?_⟩
  unfold fromExcel
  rw [if_neg (by omega)]

example : toDate (.one (.num 12)) = .ok ⟨0⟩ := C81_date_range_violated 12 (by decide) (by decide)

/-- Missing arguments that are optional: no number, no integer, no truth value; but a missing date is the invalid date, and a missing cell in an array of one cell is an error. -/
theorem C81_missing_violated :
    optional toDouble (.one .missing) = .ok none ∧ optional toInt (.one .missing) = .ok none ∧ optional toTruth (.one .missing) = .ok none ∧
    toDateOpt true (.one .missing) = .ok (some ⟨0⟩) ∧
    (∀ cell : Nat → Scalar, cell 0 = .nil → optional toDouble (.multi 1 1 1 cell) = .throws ∧ toStr true (.multi 1 1 1 cell) = .throws ∧
      toStr true (.one (cell 0)) = .ok [] ∧ toCell true (.multi 1 1 1 cell) = .throws ∧ toCell true (.one (cell 0)) = .ok .blank) := by
  refine ⟨rfl, rfl, rfl, rfl, ?_⟩
  intro cell h
  refine ⟨?_, ?_, ?_, ?_, ?_⟩ <;> simp [Excel.optional, toDouble, single, doubleOf, toStr, stringOf, toCell, cellOf, blank, h, Out.map, Out.bind]

/-- A time is the date of its whole part and the rest of the day; this holds up to a part of the day of 1 - 1e-9. -/
theorem C81_dateTime_partial (q : Rat) (h0 : 0 ≤ q) (h1 : q < 2147483647) (hf : q - ⌊q⌋ < 1 - 1 / 1000000000) :
    toDateTime false (.one (.num q)) = .ok ⟨fromExcel ⌊q⌋, q - ⌊q⌋⟩ := by
  have hint : asInt q = some ⌊q⌋ := by
    unfold asInt
    rw [if_pos (by rw [abs_of_nonneg h0]; exact h1)]
    by_cases hq : q > 0
    · rw [if_pos hq]
      unfold trunc
      rw [if_pos (by linarith)]
      congr 1
      rw [Int.floor_eq_iff]
      have := Int.floor_le q
      constructor <;> linarith
    · have : q = 0 := by linarith
      subst this
      rw [if_neg hq]
      unfold trunc
      rw [if_neg (by norm_num)]
      congr 1
      rw [Int.ceil_eq_iff]
      constructor <;> norm_num
  have hc : toDateTime false (.one (.num q)) = (Out.of (asInt q)).bind fun n => Out.of (mkFrac (fromExcel n) (q - n)) := rfl
  rw [hc, hint]
  show Out.of (mkFrac _ _) = _
  unfold mkFrac
  rw [if_pos (by linarith)]
  rfl

example : toDateTime false (.one (.num (40000 + 1 / 2))) = .ok ⟨fromExcel 40000, 1 / 2⟩ := by
  have hfl : ⌊(40000 + 1 / 2 : Rat)⌋ = 40000 := by rw [Int.floor_eq_iff]; constructor <;> norm_num
  have := C81_dateTime_partial (40000 + 1 / 2) (by norm_num) (by norm_num) (by rw [hfl]; norm_num)
  rw [hfl] at this
  rw [this]
  norm_num

/-- Within 1e-9 of the end of a day the time read is on the next day at a negative part of that day. -/
theorem C81_dateTime_violated (n : Int) (hn : 0 ≤ n) (h1 : n + 1 < 2147483647) (δ : Rat) (hd0 : 0 < δ) (hd1 : δ ≤ 1 / 1000000000) :
    toDateTime false (.one (.num (n + 1 - δ))) = .ok ⟨fromExcel (n + 1), -δ⟩ := by
  have hnq : (0 : Rat) ≤ n := by exact_mod_cast hn
  have h1q : (n : Rat) + 1 < 2147483647 := by exact_mod_cast h1
  have hint : asInt (n + 1 - δ) = some (n + 1) := by
    unfold asInt
    rw [if_pos (by rw [abs_lt]; constructor <;> linarith), if_pos (by linarith)]
    unfold trunc
    rw [if_pos (by linarith)]
    congr 1
    rw [Int.floor_eq_iff]
    push_cast
    constructor <;> linarith
  have hc : toDateTime false (.one (.num (n + 1 - δ))) =
      (Out.of (asInt (n + 1 - δ))).bind fun m => Out.of (mkFrac (fromExcel m) ((n + 1 - δ) - m)) := rfl
  rw [hc, hint]
  show Out.of (mkFrac _ _) = _
  unfold mkFrac
  rw [if_pos (by push_cast; linarith)]
  show Out.ok _ = _
  congr 2
  push_cast
  ring

example : toDateTime false (.one (.num (40000 + 1 - 1 / 1000000000))) = .ok ⟨fromExcel 40001, -(1 / 1000000000)⟩ :=
  C81_dateTime_violated 40000 (by decide) (by decide) _ (by norm_num) (le_refl _)

/-- Row `i` of a dictionary counts: it has a value, and no row before it is blank. -/
def KeptRow (cell : Nat → Scalar) (r i : Nat) : Prop :=
  i < r ∧ blank (cell (2 * i + 1)) = false ∧ ∀ i' : Nat, i' < i → ¬ (blank (cell (2 * i')) = true ∧ blank (cell (2 * i' + 1)) = true)

/-- What a dictionary holds after the rows from `i` on have been added to it. -/
theorem dictRows_spec (sgn : Bool) (cell : Nat → Scalar) (n : Nat) : ∀ (i : Nat) (d0 d : Dictionary), DictBuilt sgn d0 → dictRows sgn cell n i d0 = .ok d →
    DictBuilt sgn d ∧
    (∀ k v, lookup sgn d0 k false = some v → lookup sgn d k false = some v) ∧
    (∀ i' : Nat, i ≤ i' → i' < i + n → blank (cell (2 * i' + 1)) = false →
      (∀ m : Nat, i ≤ m → m < i' → ¬ (blank (cell (2 * m)) = true ∧ blank (cell (2 * m + 1)) = true)) →
      ∃ k v, stringOf false (cell (2 * i')) = .ok k ∧ cellOf false (cell (2 * i' + 1)) = .ok v ∧ lookup sgn d k false = some v) ∧
    (∀ k v, lookup sgn d k false = some v → lookup sgn d0 k false = some v ∨
      ∃ i' k', i ≤ i' ∧ i' < i + n ∧ blank (cell (2 * i' + 1)) = false ∧
        (∀ m : Nat, i ≤ m → m < i' → ¬ (blank (cell (2 * m)) = true ∧ blank (cell (2 * m + 1)) = true)) ∧
        stringOf false (cell (2 * i')) = .ok k' ∧ cellOf false (cell (2 * i' + 1)) = .ok v ∧ eqS sgn (condensed k) (condensed k') = true) := by
  induction n with
  | zero =>
    intro i d0 d hd h
    rw [dictRows] at h
    obtain rfl := Out.ok.inj h
    exact ⟨hd, fun _ _ h => h, fun i' h1 h2 => by omega, fun k v h => Or.inl h⟩
  | succ n ih =>
    intro i d0 d hd h
    rw [dictRows] at h
    by_cases hv : blank (cell (2 * i + 1)) = true
    · rw [if_neg (by simp [hv])] at h
      by_cases hk : blank (cell (2 * i)) = true
      · rw [if_pos hk] at h
        obtain rfl := Out.ok.inj h
        refine ⟨hd, fun _ _ h => h, ?_, fun k v h => Or.inl h⟩
        intro i' h1 h2 h3 h4
        by_cases he : i' = i
        · subst he; rw [hv] at h3; cases h3
        · exact absurd ⟨hk, hv⟩ (h4 i (le_refl _) (by omega))
      · rw [if_neg hk] at h
        obtain ⟨g1, g2, g3, g4⟩ := ih (i + 1) d0 d hd h
        refine ⟨g1, g2, ?_, ?_⟩
        · intro i' h1 h2 h3 h4
          by_cases he : i' = i
          · subst he; rw [hv] at h3; cases h3
          · exact g3 i' (by omega) (by omega) h3 fun m hm1 hm2 => h4 m (by omega) hm2
        · intro k v hl
          rcases g4 k v hl with hl | ⟨i', k', h1, h2, h3, h4, h5⟩
          · exact Or.inl hl
          · refine Or.inr ⟨i', k', by omega, by omega, h3, ?_, h5⟩
            intro m hm1 hm2
            by_cases he : m = i
            · subst he; exact fun e => hk e.1
            · exact h4 m (by omega) hm2
    · rw [if_pos (by simpa using hv), bind_ok] at h
      obtain ⟨k, hk, h⟩ := h
      rw [bind_ok] at h
      obtain ⟨v, hvv, h⟩ := h
      rw [bind_ok] at h
      obtain ⟨d1, hd1, h⟩ := h
      rw [of_ok] at hd1
      obtain ⟨g1, g2, g3, g4⟩ := ih (i + 1) d1 d (.insert k v hd hd1) h
      have hnew := C20_lookup_after_insert sgn hd k v hd1
      have hrefl : eqS sgn (condensed k) (condensed k) = true := (C15_eq_equivalence sgn).refl _
      have hnone : mapFind sgn (condensed k) d0 = none := by
        unfold Dict.insert at hd1
        split_ifs at hd1 with hs
        simpa using hs
      refine ⟨g1, ?_, ?_, ?_⟩
      · intro k' v' hl
        apply g2
        by_cases he : eqS sgn (condensed k') (condensed k) = true
        · unfold lookup at hl
          rw [mapFind_congr sgn he, hnone] at hl
          simp at hl
        · rw [((hnew k' false).2 (by simpa using he)).1]; exact hl
      · intro i' h1 h2 h3 h4
        by_cases he : i' = i
        · subst he
          exact ⟨k, v, hk, hvv, g2 k v ((hnew k false).1 hrefl).1⟩
        · exact g3 i' (by omega) (by omega) h3 fun m hm1 hm2 => h4 m (by omega) hm2
      · intro k' v' hl
        rcases g4 k' v' hl with hl | ⟨i', k2, h1, h2, h3, h4, h5⟩
        · by_cases he : eqS sgn (condensed k') (condensed k) = true
          · rw [((hnew k' false).1 he).1] at hl
            obtain rfl := Option.some.inj hl
            exact Or.inr ⟨i, k, le_refl _, by omega, by simpa using hv, fun m h1 h2 => by omega, hk, hvv, he⟩
          · rw [((hnew k' false).2 (by simpa using he)).1] at hl
            exact Or.inl hl
        · refine Or.inr ⟨i', k2, by omega, by omega, h3, ?_, h5⟩
          intro m hm1 hm2
          by_cases he : m = i
          · subst he; exact fun e => hv e.2
          · exact h4 m (by omega) hm2

/-- A dictionary that is read holds exactly the rows with a value before the first blank row: each is found under its key, and whatever is found is one of them. -/
theorem C81_dictionary (sgn : Bool) (r alloc : Nat) (cell : Nat → Scalar) (d : Dictionary)
    (h : toDictionary sgn (.multi r 2 alloc cell) = .ok d) :
    (∀ i : Nat, KeptRow cell r i → ∃ k v, stringOf false (cell (2 * i)) = .ok k ∧ cellOf false (cell (2 * i + 1)) = .ok v ∧ lookup sgn d k false = some v) ∧
    (∀ k v, lookup sgn d k false = some v → ∃ i k', KeptRow cell r i ∧ stringOf false (cell (2 * i)) = .ok k' ∧
      cellOf false (cell (2 * i + 1)) = .ok v ∧ eqS sgn (condensed k) (condensed k') = true) := by
  simp only [toDictionary, if_true] at h
  split_ifs at h
  obtain ⟨_, _, g3, g4⟩ := dictRows_spec sgn cell r 0 [] d .empty h
  constructor
  · rintro i ⟨h1, h2, h3⟩
    exact g3 i (Nat.zero_le _) (by omega) h2 fun m _ hm => h3 m hm
  · intro k v hl
    rcases g4 k v hl with hl | ⟨i', k', _, h2, h3, h4, h5⟩
    · simp [lookup, mapFind] at hl
    · exact ⟨i', k', ⟨by omega, h3, fun m hm => h4 m (Nat.zero_le _) hm⟩, h5⟩

/-- Dictionaries with keys and values that can be read, and without two keys alike, are read. -/
theorem C81_dictionary_read (sgn : Bool) (r alloc : Nat) (cell : Nat → Scalar) (ha : 2 * r ≤ alloc) (key : Nat → Str) (val : Nat → Cell)
    (hr : ∀ i : Nat, KeptRow cell r i → stringOf false (cell (2 * i)) = .ok (key i) ∧ cellOf false (cell (2 * i + 1)) = .ok (val i))
    (hd : ∀ i j : Nat, KeptRow cell r i → KeptRow cell r j → i < j → eqS sgn (condensed (key j)) (condensed (key i)) = false) :
    ∃ d, toDictionary sgn (.multi r 2 alloc cell) = .ok d := by
  simp only [toDictionary, if_true]
  rw [if_neg (by omega)]
  have key' : ∀ (n i : Nat) (d0 : Dictionary), i + n = r → DictBuilt sgn d0 →
      (∀ m : Nat, m < i → ¬ (blank (cell (2 * m)) = true ∧ blank (cell (2 * m + 1)) = true)) →
      (∀ j : Nat, KeptRow cell r j → i ≤ j → mapFind sgn (condensed (key j)) d0 = none) → ∃ d, dictRows sgn cell n i d0 = .ok d := by
    intro n
    induction n with
    | zero => intro i d0 _ _ _ _; exact ⟨d0, rfl⟩
    | succ n ih =>
      intro i d0 hn hb hnb hf
      rw [dictRows]
      by_cases hv : blank (cell (2 * i + 1)) = true
      · rw [if_neg (by simp [hv])]
        by_cases hk : blank (cell (2 * i)) = true
        · rw [if_pos hk]; exact ⟨d0, rfl⟩
        · rw [if_neg hk]
          refine ih (i + 1) d0 (by omega) hb ?_ fun j hj hij => hf j hj (by omega)
          intro m hm
          by_cases he : m = i
          · subst he; exact fun e => hk e.1
          · exact hnb m (by omega)
      · rw [if_pos (by simpa using hv)]
        have hkept : KeptRow cell r i := ⟨by omega, by simpa using hv, hnb⟩
        obtain ⟨h1, h2⟩ := hr i hkept
        rw [h1, h2]
        simp only [Out.bind]
        have hins : Dict.insert sgn d0 (key i) (val i) = some (mapInsert sgn (condensed (key i)) (val i) d0) := by
          unfold Dict.insert
          rw [hf i hkept (le_refl _)]; simp
        rw [hins]
        simp only [Out.of]
        refine ih (i + 1) _ (by omega) (.insert _ _ hb hins) ?_ ?_
        · intro m hm
          by_cases he : m = i
          · subst he; exact fun e => hv e.2
          · exact hnb m (by omega)
        · intro j hj hij
          have hl := ((C20_lookup_after_insert sgn hb (key i) (val i) hins (key j) false).2 (hd i j hkept hj (by omega))).2
          unfold has at hl
          rw [hf j hj (by omega)] at hl
          simpa using hl
  exact key' r 0 [] (by omega) .empty (fun m hm => by omega) fun j _ _ => rfl

/-- What Excel can pass: an array has the memory that it says, and there are no integer cells. -/
def Oper.Sound : Oper → Prop
  | .one s => ∀ w, s ≠ .int w
  | .multi r c alloc cell => r * c ≤ alloc ∧ ∀ (k : Nat) (w : Int), cell k ≠ .int w

theorem single_sound {α : Type} {f : Scalar → Out α} (hf : ∀ s, (∀ w, s ≠ .int w) → f s ≠ .undefined) {o : Oper} (ho : Oper.Sound o) :
    single f o ≠ .undefined := by
  cases o with
  | one s => exact hf s ho
  | multi r c alloc cell =>
    obtain ⟨h1, h2⟩ := ho
    rw [single]
    split_ifs with h3 h4
    · omega
    · exact hf _ (h2 0)
    · simp

theorem bind_sound {α β : Type} {x : Out α} {f : α → Out β} (hx : x ≠ .undefined) (hf : ∀ a, x = .ok a → f a ≠ .undefined) : x.bind f ≠ .undefined := by
  cases x with
  | ok a => exact hf a rfl
  | throws => simp [Out.bind]
  | undefined => exact absurd rfl hx

theorem map_sound {α β : Type} {x : Out α} {f : α → β} (hx : x ≠ .undefined) : x.map f ≠ .undefined :=
  bind_sound hx fun a _ => by simp

theorem of_sound {α : Type} (x : Option α) : Out.of x ≠ .undefined := by cases x <;> simp [Out.of]

theorem each_sound {α : Type} {f : Scalar → Out α} (l : List Scalar) (hf : ∀ s ∈ l, f s ≠ .undefined) : each f l ≠ .undefined := by
  induction l with
  | nil => simp [each]
  | cons s l ih =>
    rw [each]
    exact bind_sound (hf s (by simp)) fun a _ => map_sound (ih fun s' h => hf s' (by simp [h]))

theorem cellOf_sound (opt : Bool) (s : Scalar) (hs : ∀ w, s ≠ .int w) : cellOf opt s ≠ .undefined := by
  cases s with
  | int w => exact absurd rfl (hs w)
  | _ => unfold cellOf; dsimp only; split_ifs <;> simp

/-- No reader leaves what is defined for arguments that Excel can pass: each gives a value or an error. -/
theorem C81_defined (o : Oper) (ho : Oper.Sound o) (opt greedy sgn : Bool) :
    toDouble o ≠ .undefined ∧ toInt o ≠ .undefined ∧ toTruth o ≠ .undefined ∧ toStr opt o ≠ .undefined ∧ toCell opt o ≠ .undefined ∧
    toDate o ≠ .undefined ∧ toDateTime opt o ≠ .undefined ∧ toDictionary sgn o ≠ .undefined ∧
    (∀ {α : Type} (f : Scalar → Out α), (∀ s, (∀ w, s ≠ .int w) → f s ≠ .undefined) →
      readVector opt f o ≠ .undefined ∧ toMatrix opt greedy f o ≠ .undefined) ∧ rowsOf o ≠ .undefined := by
  have hstr : ∀ b s, stringOf b s ≠ .undefined := by
    intro b s; cases s <;> simp [stringOf] <;> split_ifs <;> simp
  have hcell : toCell opt o ≠ .undefined := by
    cases o with
    | one s => exact cellOf_sound opt s ho
    | multi r c alloc cell => exact single_sound (cellOf_sound false) ho
  have hcellf : toCell false o ≠ .undefined := by
    cases o with
    | one s => exact cellOf_sound false s ho
    | multi r c alloc cell => exact single_sound (cellOf_sound false) ho
  refine ⟨single_sound (fun s hs => ?_) ho, single_sound (fun s hs => ?_) ho, single_sound (fun s hs => ?_) ho, ?_, hcell, ?_, ?_, ?_, ?_, ?_⟩
  · cases s with
    | int w => exact absurd rfl (hs w)
    | _ => simp [doubleOf]
  · cases s with
    | int w => exact absurd rfl (hs w)
    | num q => exact bind_sound (of_sound _) fun a _ => by split_ifs <;> simp
    | _ => simp [intOf]
  · cases s with
    | int w => exact absurd rfl (hs w)
    | num q => simp only [boolOf]; split_ifs <;> simp
    | _ => simp [boolOf]
  · cases o with
    | one s => exact hstr opt s
    | multi r c alloc cell => exact single_sound (fun s _ => hstr false s) ho
  · refine bind_sound (bind_sound hcellf ?_) fun a _ => of_sound a
    intro c _
    by_cases he : cellEmpty c = true
    · rw [if_pos he]; simp
    · rw [if_neg he]
      cases c with
      | num q => exact bind_sound (of_sound _) fun a _ => by split_ifs <;> simp
      | _ => simp
  · refine bind_sound hcell ?_
    intro c _
    split_ifs
    · simp
    · simp
    · cases c with
      | num q => exact bind_sound (of_sound _) fun a _ => of_sound _
      | _ => simp
  · cases o with
    | one s => unfold toDictionary; dsimp only; split_ifs <;> simp
    | multi r c alloc cell =>
      unfold toDictionary
      dsimp only
      split_ifs with hc ha
      · have := ho.1; omega
      · have hrows : ∀ (n i : Nat) (d : Dictionary), dictRows sgn cell n i d ≠ .undefined := by
          intro n
          induction n with
          | zero => intro i d; simp [dictRows]
          | succ n ih =>
            intro i d
            rw [dictRows]
            split_ifs
            · exact bind_sound (hstr _ _) fun k _ => bind_sound (cellOf_sound _ _ (ho.2 _)) fun v _ => bind_sound (of_sound _) fun d _ => ih _ _
            · simp
            · exact ih _ _
        exact hrows r 0 []
      · simp
  · intro α f hf
    cases o with
    | one s =>
      constructor
      · unfold readVector; dsimp only
        split_ifs
        · simp
        · simp
        · exact map_sound (hf s ho)
      · unfold toMatrix; dsimp only
        split_ifs
        · simp
        · simp
        · exact map_sound (hf s ho)
    | multi r c alloc cell =>
      have hcells : ∀ i n : Nat, ∀ s ∈ cells cell i n, f s ≠ .undefined := by
        intro i n s hs
        simp only [cells, List.mem_map] at hs
        obtain ⟨k, _, rfl⟩ := hs
        exact hf _ (ho.2 _)
      constructor
      · unfold readVector; dsimp only
        have h1 := ho.1
        rw [if_neg (by omega : ¬ alloc < r * c)]
        split_ifs
        · refine bind_sound ?_ fun l _ => by split_ifs <;> simp
          rw [readFrom_eq]
          exact each_sound _ fun s hs => hcells 0 (r * c) s ((List.takeWhile_sublist _).subset hs)
        · simp
      · unfold toMatrix; dsimp only
        have h1 := ho.1
        rw [if_neg (by omega : ¬ alloc < r * c)]
        obtain ⟨r', c', hs, _, _⟩ := nonblankSize_total r c cell
        have hrows : ∀ c' n i : Nat, readRows f cell c c' n i ≠ .undefined := by
          intro c' n
          induction n with
          | zero => intro i; simp [readRows]
          | succ n ih =>
            intro i
            rw [readRows, readRow_eq]
            exact bind_sound (each_sound _ (hcells _ _)) fun row _ => map_sound (ih _)
        have hfin : ∀ r' c' : Nat, (if r' * c' = 0 then if opt = true then Out.ok ((0 : Nat), (0 : Nat), ([] : List (List α))) else .throws
            else (readRows f cell c c' r' 0).map fun l => (r', c', l)) ≠ .undefined := by
          intro r' c'
          split_ifs
          · simp
          · simp
          · exact map_sound (hrows _ _ _)
        cases greedy with
        | true => exact hfin r c
        | false =>
          simp only [Bool.false_eq_true, if_false, hs]
          exact hfin r' c'
  · cases o with
    | one s => unfold rowsOf; dsimp only; split_ifs <;> simp
    | multi r c alloc cell =>
      have h1 := ho.1
      obtain ⟨r', c', hs, _, _⟩ := nonblankSize_total r c cell
      simp only [rowsOf]
      rw [if_neg (by omega), hs]; simp

example : Oper.Sound (.multi 2 2 4 fun k => .num k) := ⟨by decide, fun k w h => by cases h⟩

/-- Integer cells are read through the wrong member: whatever is asked of them has no defined outcome. -/
theorem C81_integer_cell_violated (w : Int) (opt : Bool) :
    toDouble (.one (.int w)) = .undefined ∧ toInt (.one (.int w)) = .undefined ∧ toTruth (.one (.int w)) = .undefined ∧
    toCell opt (.one (.int w)) = .undefined ∧ toDate (.one (.int w)) = .undefined := ⟨rfl, rfl, rfl, rfl, rfl⟩

end Dal
