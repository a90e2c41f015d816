import Verif.Excel.InputProps

/-! # C82: results to Excel -/

namespace Dal
open Excel Strings DateText Date Dict

/-- The columns of a result: the single values below each other, each vector, each column of each matrix. -/
def resultColumns (r : Retval) : List (List Cell) :=
  (if r.scalars = [] then [] else [r.scalars]) ++ r.vectors ++
    r.matrices.flatMap fun m => (List.range m.cols).map fun j => (List.range m.rows).map fun i => m.val i j

/-- Row `i` of column `j` of columns side by side, `none` where a column is too short. -/
def columnEntry (cols : List (List Cell)) (i j : Nat) : Option Cell := (cols[j]?).bind fun col => col[i]?

theorem index_inj {nc i j i' j' : Nat} (hj : j < nc) (hj' : j' < nc) : (j + i * nc = i' * nc + j') ↔ i = i' ∧ j = j' := by
  constructor
  · intro h
    have h1 : (i * nc + j) / nc = (i' * nc + j') / nc := by rw [← h, Nat.add_comm]
    have h2 : (i * nc + j) % nc = (i' * nc + j') % nc := by rw [← h, Nat.add_comm]
    rw [Nat.mul_comm i, Nat.mul_comm i', Nat.mul_add_div (by omega), Nat.mul_add_div (by omega), Nat.div_eq_of_lt hj, Nat.div_eq_of_lt hj'] at h1
    rw [Nat.mul_comm i, Nat.mul_comm i', Nat.mul_add_mod, Nat.mul_add_mod, Nat.mod_eq_of_lt hj, Nat.mod_eq_of_lt hj'] at h2
    exact ⟨by omega, h2⟩
  · rintro ⟨rfl, rfl⟩; omega

/-- An array with columns written over it from column `off` on. -/
def over (nc : Nat) (cols : List (List Cell)) (off : Nat) (a : Nat → Scalar) (i j : Nat) : Scalar :=
  if off ≤ j then match columnEntry cols i (j - off) with | some c => writeCell c | none => a (i * nc + j) else a (i * nc + j)

theorem putCol_get (nc col : Nat) (hc : col < nc) (l : List Cell) : ∀ (i0 : Nat) (a : Nat → Scalar) (i j : Nat), j < nc →
    putCol nc col l i0 a (i * nc + j) = if j = col ∧ i0 ≤ i then match l[i - i0]? with | some c => writeCell c | none => a (i * nc + j) else a (i * nc + j) := by
  induction l with
  | nil => intro i0 a i j _; simp [putCol]
  | cons c l ih =>
    intro i0 a i j hj
    rw [putCol, ih _ _ _ _ hj]
    have hput : put a (col + i0 * nc) c (i * nc + j) = if i0 = i ∧ col = j then writeCell c else a (i * nc + j) := by
      unfold put
      by_cases h : i0 = i ∧ col = j
      · rw [if_pos h, if_pos ((index_inj hc hj).2 h).symm]
      · rw [if_neg h, if_neg fun e => h ((index_inj hc hj).1 e.symm)]
    rw [hput]
    by_cases h1 : j = col
    · subst h1
      by_cases h2 : i0 + 1 ≤ i
      · rw [if_pos (show j = j ∧ i0 + 1 ≤ i from ⟨rfl, h2⟩), if_pos (show j = j ∧ i0 ≤ i from ⟨rfl, by omega⟩), show i - i0 = (i - (i0 + 1)) + 1 by omega,
          List.getElem?_cons_succ, if_neg (by omega)]
      · rw [if_neg (by omega)]
        by_cases h3 : i0 = i
        · subst h3; simp
        · rw [if_neg (by omega), if_neg (by omega)]
    · rw [if_neg (by tauto), if_neg (fun e => h1 e.2.symm), if_neg (by tauto)]

theorem putVectors_get (nc : Nat) (vs : List (List Cell)) : ∀ (off : Nat) (a : Nat → Scalar) (i j : Nat), off + vs.length ≤ nc → j < nc →
    putVectors nc vs off a (i * nc + j) = over nc vs off a i j := by
  induction vs with
  | nil => intro off a i j _ _; simp [putVectors, over, columnEntry]
  | cons v vs ih =>
    intro off a i j h hj
    rw [List.length_cons] at h
    rw [putVectors, ih _ _ _ _ (by omega) hj]
    unfold over
    rw [putCol_get nc off (by omega) v 0 a i j hj]
    by_cases h1 : off + 1 ≤ j
    · rw [if_pos h1, if_pos (show off ≤ j by omega), if_neg (show ¬ (j = off ∧ 0 ≤ i) by omega)]
      rw [show j - off = (j - (off + 1)) + 1 by omega]
      simp only [columnEntry, List.getElem?_cons_succ]
    · rw [if_neg h1]
      by_cases h2 : j = off
      · subst h2
        rw [if_pos ⟨rfl, Nat.zero_le _⟩, if_pos (le_refl _)]
        simp [columnEntry]
      · rw [if_neg (by tauto), if_neg (by omega)]

theorem putRow_get (nc off : Nat) (m : Mat Cell) (i0 : Nat) (n : Nat) : ∀ (a : Nat → Scalar) (i j : Nat), off + n ≤ nc → j < nc →
    putRow nc off m i0 n a (i * nc + j) = if i = i0 ∧ off ≤ j ∧ j < off + n then writeCell (m.val i0 (j - off)) else a (i * nc + j) := by
  induction n with
  | zero => intro a i j _ _; rw [putRow, if_neg (by omega)]
  | succ n ih =>
    intro a i j h hj
    rw [putRow]
    unfold put
    by_cases he : i0 = i ∧ off + n = j
    · rw [if_pos ((index_inj (by omega) hj).2 he).symm, if_pos (by omega), show j - off = n by omega]
    · rw [if_neg fun e => he ((index_inj (by omega) hj).1 e.symm), ih a i j (by omega) hj]
      by_cases h2 : i = i0 ∧ off ≤ j ∧ j < off + n
      · rw [if_pos h2, if_pos (by omega)]
      · rw [if_neg h2, if_neg (by omega)]

theorem putMat_get (nc off : Nat) (m : Mat Cell) (n : Nat) : ∀ (a : Nat → Scalar) (i j : Nat), off + m.cols ≤ nc → j < nc →
    putMat nc off m n a (i * nc + j) = if i < n ∧ off ≤ j ∧ j < off + m.cols then writeCell (m.val i (j - off)) else a (i * nc + j) := by
  induction n with
  | zero => intro a i j _ _; rw [putMat, if_neg (by omega)]
  | succ n ih =>
    intro a i j h hj
    rw [putMat, putRow_get nc off m n m.cols _ i j h hj, ih a i j h hj]
    by_cases h1 : i = n ∧ off ≤ j ∧ j < off + m.cols
    · rw [if_pos h1, if_pos (by omega), h1.1]
    · rw [if_neg h1]
      by_cases h2 : i < n ∧ off ≤ j ∧ j < off + m.cols
      · rw [if_pos h2, if_pos (by omega)]
      · rw [if_neg h2, if_neg (by omega)]

/-- The columns of a matrix. -/
def matColumns (m : Mat Cell) : List (List Cell) := (List.range m.cols).map fun j => (List.range m.rows).map fun i => m.val i j

theorem matColumns_entry (m : Mat Cell) (i j : Nat) : columnEntry (matColumns m) i j = if i < m.rows ∧ j < m.cols then some (m.val i j) else none := by
  unfold columnEntry matColumns
  rw [List.getElem?_map]
  by_cases hj : j < m.cols
  · rw [List.getElem?_range hj]
    simp only [Option.map_some, Option.bind_some, List.getElem?_map]
    by_cases hi : i < m.rows
    · rw [List.getElem?_range hi, if_pos ⟨hi, hj⟩]; rfl
    · rw [List.getElem?_eq_none (by simpa using hi), if_neg (by omega)]; rfl
  · rw [List.getElem?_eq_none (by simpa using hj), if_neg (by omega)]; rfl

theorem columnEntry_append (c1 c2 : List (List Cell)) (i j : Nat) :
    columnEntry (c1 ++ c2) i j = if j < c1.length then columnEntry c1 i j else columnEntry c2 i (j - c1.length) := by
  unfold columnEntry
  by_cases h : j < c1.length
  · rw [if_pos h, List.getElem?_append_left h]
  · rw [if_neg h, List.getElem?_append_right (by omega)]

theorem matColumns_length (m : Mat Cell) : (matColumns m).length = m.cols := by simp [matColumns]

theorem over_append (nc : Nat) (c1 c2 : List (List Cell)) (off : Nat) (a b : Nat → Scalar) (i j : Nat)
    (hb : b (i * nc + j) = over nc c1 off a i j) : over nc c2 (off + c1.length) b i j = over nc (c1 ++ c2) off a i j := by
  unfold over at *
  rw [columnEntry_append]
  by_cases h1 : off + c1.length ≤ j
  · rw [if_pos h1, if_pos (by omega), if_neg (by omega), show j - off - c1.length = j - (off + c1.length) by omega]
    have hn : columnEntry c1 i (j - off) = none := by
      unfold columnEntry; rw [List.getElem?_eq_none (by omega)]; rfl
    rw [if_pos (by omega), hn] at hb
    rw [hb]
  · rw [if_neg h1, hb]
    by_cases h2 : off ≤ j
    · rw [if_pos h2, if_pos h2, if_pos (by omega)]
    · rw [if_neg h2, if_neg h2]

theorem putMatrices_get (nc : Nat) (ms : List (Mat Cell)) : ∀ (off : Nat) (a : Nat → Scalar) (i j : Nat), off + (ms.flatMap matColumns).length ≤ nc → j < nc →
    putMatrices nc ms off a (i * nc + j) = over nc (ms.flatMap matColumns) off a i j := by
  induction ms with
  | nil => intro off a i j _ _; simp [putMatrices, over, columnEntry]
  | cons m ms ih =>
    intro off a i j h hj
    rw [List.flatMap_cons, List.length_append, matColumns_length] at h
    rw [putMatrices, ih _ _ _ _ (by omega) hj, List.flatMap_cons, ← matColumns_length m]
    apply over_append
    rw [putMat_get nc off m m.rows a i j (by omega) hj]
    unfold over
    rw [matColumns_entry]
    by_cases h1 : off ≤ j
    · rw [if_pos h1]
      by_cases h2 : i < m.rows ∧ j - off < m.cols
      · rw [if_pos h2, if_pos (by omega)]
      · rw [if_neg h2, if_neg (by omega)]
    · rw [if_neg h1, if_neg (by omega)]

theorem foldl_add (l : List Nat) : ∀ n : Nat, l.foldl (· + ·) n = n + l.sum := by
  induction l with
  | nil => intro n; simp
  | cons a l ih => intro n; rw [List.foldl_cons, ih, List.sum_cons]; omega

theorem nCols_eq (r : Retval) : r.nCols = (resultColumns r).length := by
  unfold Retval.nCols resultColumns
  rw [foldl_add]
  have : (r.matrices.flatMap fun m => (List.range m.cols).map fun j => (List.range m.rows).map fun i => m.val i j).length = (r.matrices.map Mat.cols).sum := by
    rw [List.length_flatMap]
    simp
  simp only [List.length_append, this]
  cases r.scalars <;> simp

theorem foldl_max (l : List Nat) : ∀ n : Nat, n ≤ l.foldl max n ∧ (∀ x ∈ l, x ≤ l.foldl max n) ∧ ∀ b, n ≤ b → (∀ x ∈ l, x ≤ b) → l.foldl max n ≤ b := by
  induction l with
  | nil => intro n; simp
  | cons a l ih =>
    intro n
    rw [List.foldl_cons]
    obtain ⟨h1, h2, h3⟩ := ih (max n a)
    refine ⟨by omega, ?_, ?_⟩
    · intro x hx
      rcases List.mem_cons.1 hx with rfl | hx
      · omega
      · exact h2 x hx
    · intro b hn hb
      exact h3 b (by have := hb a (by simp); omega) fun x hx => hb x (by simp [hx])

/-- The number of rows in memory is the least one with room for everything. -/
theorem C82_rows (r : Retval) (b : Nat) :
    r.nRows ≤ b ↔ r.scalars.length ≤ b ∧ (∀ v ∈ r.vectors, v.length ≤ b) ∧ ∀ m ∈ r.matrices, m.rows ≤ b := by
  unfold Retval.nRows
  obtain ⟨a1, a2, a3⟩ := foldl_max (r.vectors.map List.length) r.scalars.length
  obtain ⟨b1, b2, b3⟩ := foldl_max (r.matrices.map Mat.rows) ((r.vectors.map List.length).foldl max r.scalars.length)
  constructor
  · intro h
    refine ⟨by omega, ?_, ?_⟩
    · intro v hv
      have := a2 v.length (List.mem_map_of_mem hv)
      omega
    · intro m hm
      have := b2 m.rows (List.mem_map_of_mem hm)
      omega
  · rintro ⟨h1, h2, h3⟩
    refine b3 b (a3 b h1 ?_) ?_
    · intro x hx
      obtain ⟨v, hv, rfl⟩ := List.mem_map.1 hx
      exact h2 v hv
    · intro x hx
      obtain ⟨m, hm, rfl⟩ := List.mem_map.1 hx
      exact h3 m hm

theorem entry_row (r : Retval) (i j : Nat) (c : Cell) (h : columnEntry (resultColumns r) i j = some c) : i < r.nRows := by
  unfold columnEntry at h
  obtain ⟨col, hcol, hc⟩ := Option.bind_eq_some_iff.1 h
  have hmem := List.mem_of_getElem? hcol
  have hlen : i < col.length := by
    by_contra hge
    rw [List.getElem?_eq_none (by omega)] at hc; cases hc
  have hall := (C82_rows r r.nRows).1 (le_refl _)
  unfold resultColumns at hmem
  rcases List.mem_append.1 hmem with hmem | hmem
  · rcases List.mem_append.1 hmem with hmem | hmem
    · split_ifs at hmem
      · simp at hmem
      · rw [List.mem_singleton.1 hmem] at hlen
        have := hall.1; omega
    · have := hall.2.1 col hmem; omega
  · obtain ⟨m, hm, hcm⟩ := List.mem_flatMap.1 hmem
    obtain ⟨k, _, rfl⟩ := List.mem_map.1 hcm
    have := hall.2.2 m hm
    simp at hlen; omega

/-- The layout of a result: its columns side by side, each from the top, blank below; nothing is written outside the memory. -/
theorem C82_layout (r : Retval) : ∃ cell : Nat → Scalar, r.toXloper = .multi (max r.nRows 1) (resultColumns r).length (r.nRows * (resultColumns r).length) cell ∧
    (∀ i j : Nat, j < (resultColumns r).length →
      cell (i * (resultColumns r).length + j) = match columnEntry (resultColumns r) i j with | some c => writeCell c | none => .missing) ∧
    (∀ k : Nat, r.nRows * (resultColumns r).length ≤ k → 0 < (resultColumns r).length → cell k = .missing) := by
  unfold Retval.toXloper
  dsimp only
  rw [nCols_eq]
  set nc := (resultColumns r).length with hnc
  have hget : ∀ i j : Nat, j < nc →
      putMatrices nc r.matrices ((if r.scalars.isEmpty = true then 0 else 1) + r.vectors.length) (putVectors nc r.vectors (if r.scalars.isEmpty = true then 0 else 1)
        (putCol nc 0 r.scalars 0 fun _ => .missing)) (i * nc + j) = match columnEntry (resultColumns r) i j with | some c => writeCell c | none => .missing := by
    intro i j hj
    set sc : List (List Cell) := if r.scalars = [] then [] else [r.scalars] with hsc
    have hoff : (if r.scalars.isEmpty = true then 0 else 1) = sc.length := by
      rw [hsc]; cases r.scalars <;> simp
    have hlen : nc = sc.length + r.vectors.length + (r.matrices.flatMap matColumns).length := by
      rw [hnc]; unfold resultColumns
      rw [← hsc, List.length_append, List.length_append]; rfl
    have h0 : putCol nc 0 r.scalars 0 (fun _ => .missing) (i * nc + j) = over nc sc 0 (fun _ => .missing) i j := by
      rw [putCol_get nc 0 (by omega) r.scalars 0 _ i j hj]
      unfold over
      rw [if_pos (Nat.zero_le _), hsc]
      by_cases hj0 : j = 0
      · subst hj0
        rw [if_pos ⟨rfl, Nat.zero_le _⟩]
        cases hs : r.scalars with
        | nil => simp [columnEntry]
        | cons x xs => simp [columnEntry]
      · rw [if_neg (by omega)]
        cases hs : r.scalars with
        | nil => simp [columnEntry]
        | cons x xs =>
          have : columnEntry (if x :: xs = [] then [] else [x :: xs]) i (j - 0) = none := by
            unfold columnEntry
            rw [List.getElem?_eq_none (by simp; omega)]; rfl
          rw [this]
    have h1 : putVectors nc r.vectors sc.length (putCol nc 0 r.scalars 0 fun _ => .missing) (i * nc + j) =
        over nc (sc ++ r.vectors) 0 (fun _ => .missing) i j := by
      rw [putVectors_get nc r.vectors sc.length _ i j (by omega) hj]
      have := over_append nc sc r.vectors 0 (fun _ => .missing) _ i j h0
      rwa [Nat.zero_add] at this
    rw [hoff, putMatrices_get nc r.matrices _ _ i j (by omega) hj]
    have := over_append nc (sc ++ r.vectors) (r.matrices.flatMap matColumns) 0 (fun _ => .missing) _ i j h1
    rw [Nat.zero_add, List.length_append] at this
    rw [this]
    unfold over
    rw [if_pos (Nat.zero_le _), Nat.sub_zero]
    rfl
  refine ⟨_, rfl, hget, ?_⟩
  intro k hk h0
  have hk' : k = (k / nc) * nc + k % nc := by rw [Nat.mul_comm]; exact (Nat.div_add_mod k nc).symm
  rw [hk', hget (k / nc) (k % nc) (Nat.mod_lt _ h0)]
  have hrow : r.nRows ≤ k / nc := (Nat.le_div_iff_mul_le h0).2 hk
  cases he : columnEntry (resultColumns r) (k / nc) (k % nc) with
  | none => rfl
  | some c =>
    have := entry_row r _ _ c he
    omega

example : ∃ cell, (((({} : Retval).loadS (.num 7)).loadV [.num 1, .num 2]).loadM ⟨1, 2, fun _ j => .num j⟩).toXloper = .multi 2 4 8 cell ∧
    cell 0 = .num 7 ∧ cell 1 = .num 1 ∧ cell 3 = .num 1 ∧ cell 4 = .missing ∧ cell 5 = .num 2 := ⟨_, rfl, by decide⟩

/-- The result has the memory it announces exactly when it has a row, or no columns. -/
theorem C82_memory_partial (r : Retval) (rows cols alloc : Nat) (cell : Nat → Scalar) (h : r.toXloper = .multi rows cols alloc cell) :
    rows * cols ≤ alloc ↔ r.nRows ≠ 0 ∨ resultColumns r = [] := by
  obtain ⟨cell', he, _, _⟩ := C82_layout r
  rw [h] at he
  injection he with h1 h2 h3 _
  subst h1 h2 h3
  rw [← List.length_eq_zero_iff]
  constructor
  · intro hm
    by_contra hc
    have h0 : r.nRows = 0 := by omega
    have h1 : (resultColumns r).length ≠ 0 := by omega
    rw [h0] at hm
    simp only [Nat.zero_max, Nat.one_mul, Nat.zero_mul] at hm
    omega
  · rintro (h0 | h0)
    · rw [show max r.nRows 1 = r.nRows by omega]
    · rw [h0]; simp

/-- A result of empty vectors only is announced as one row of cells that have no memory: reading it is undefined. -/
theorem C82_empty_vector_violated (n : Nat) (hn : 1 ≤ n) :
    ∃ cell, ({ vectors := List.replicate n [] } : Retval).toXloper = .multi 1 n 0 cell ∧
      ∀ opt : Bool, readVector opt doubleOf (.multi 1 n 0 cell) = .undefined := by
  set r : Retval := { vectors := List.replicate n [] } with hr
  obtain ⟨cell, he, _, _⟩ := C82_layout r
  have hrows : r.nRows = 0 := by
    have := (C82_rows r 0).2 ⟨by simp [hr], by simp [hr], by simp [hr]⟩
    omega
  have hcols : (resultColumns r).length = n := by simp [resultColumns, hr]
  rw [hrows, hcols] at he
  refine ⟨cell, by rw [he]; simp, ?_⟩
  intro opt
  simp only [readVector]
  rw [if_pos (Or.inl trivial), if_pos (by omega)]

example : ∃ cell, ({ vectors := [[]] } : Retval).toXloper = .multi 1 1 0 cell ∧ ∀ opt : Bool, readVector opt doubleOf (.multi 1 1 0 cell) = .undefined :=
  C82_empty_vector_violated 1 (le_refl _)

/-! ### Reading back what was written -/

theorem columns_vector (v : List Cell) : resultColumns (({} : Retval).loadV v) = [v] := by simp [resultColumns, Retval.loadV]

theorem columns_matrix (m : Mat Cell) : resultColumns (({} : Retval).loadM m) = matColumns m := by
  simp [resultColumns, Retval.loadM, matColumns]

theorem columns_scalar (c : Cell) : resultColumns (({} : Retval).loadS c) = [[c]] := by simp [resultColumns, Retval.loadS]

/-- A vector given as the result and read as an argument is the same, entry by entry, whenever its entries are written as something visible. -/
theorem C82_vector_roundtrip {α : Type} (f : Scalar → Out α) (g : Cell → α) (v : List Cell) (h0 : v ≠ []) (opt : Bool)
    (hf : ∀ c ∈ v, blank (writeCell c) = false ∧ f (writeCell c) = .ok (g c)) :
    readVector opt f (({} : Retval).loadV v).toXloper = .ok (v.map g) := by
  obtain ⟨cell, he, hget, _⟩ := C82_layout (({} : Retval).loadV v)
  have hrows : (({} : Retval).loadV v).nRows = v.length := by simp [Retval.nRows, Retval.loadV]
  have hpos : 1 ≤ v.length := List.length_pos_iff.2 h0
  rw [columns_vector] at he hget
  rw [hrows] at he
  simp only [List.length_singleton, Nat.mul_one] at he hget
  have hcell : ∀ i : Nat, ∀ hi : i < v.length, cell i = writeCell v[i] := by
    intro i hi
    have := hget i 0 Nat.zero_lt_one
    simpa [columnEntry, hi] using this
  rw [he, show max v.length 1 = v.length by omega, C81_vector opt f v.length 1 v.length cell (Or.inr rfl) (by omega)]
  refine ⟨⟨by simp, ?_, fun h => by simp at h⟩, ?_, Or.inl (by simpa using h0)⟩
  · intro i hi
    rw [List.length_map] at hi
    rw [hcell i hi]
    exact (hf _ (List.getElem_mem hi)).1
  · intro i a hi
    rw [List.getElem?_map] at hi
    obtain ⟨c, hc, rfl⟩ := Option.map_eq_some_iff.1 hi
    obtain ⟨hlt, rfl⟩ := List.getElem?_eq_some_iff.1 hc
    rw [hcell i hlt]
    exact (hf _ (List.getElem_mem hlt)).2

/-- A matrix with rows and columns given as the result and read as an argument has the same size and entries, whenever its entries are written as something visible. -/
theorem C82_matrix_roundtrip {α : Type} (f : Scalar → Out α) (g : Cell → α) (m : Mat Cell) (hr : 1 ≤ m.rows) (hc : 1 ≤ m.cols) (opt greedy : Bool)
    (hf : ∀ i j : Nat, i < m.rows → j < m.cols → blank (writeCell (m.val i j)) = false ∧ f (writeCell (m.val i j)) = .ok (g (m.val i j))) :
    toMatrix opt greedy f (({} : Retval).loadM m).toXloper =
      .ok (m.rows, m.cols, (List.range m.rows).map fun i => (List.range m.cols).map fun j => g (m.val i j)) := by
  obtain ⟨cell, he, hget, _⟩ := C82_layout (({} : Retval).loadM m)
  have hrows : (({} : Retval).loadM m).nRows = m.rows := by simp [Retval.nRows, Retval.loadM]
  rw [columns_matrix, matColumns_length] at he hget
  rw [hrows, show max m.rows 1 = m.rows by omega] at he
  have hcell : ∀ i j : Nat, i < m.rows → j < m.cols → cell (i * m.cols + j) = writeCell (m.val i j) := by
    intro i j hi hj
    rw [hget i j hj, matColumns_entry, if_pos ⟨hi, hj⟩]
  have hsize : nonblankSize m.rows m.cols cell = some (m.rows, m.cols) := by
    apply C81_rectangle m.rows m.cols m.rows m.cols cell hr (le_refl _) hc (le_refl _)
    intro i j hi hj
    rw [hcell i j hi hj, (hf i j hi hj).1]
    simp [hi, hj]
  rw [he, C81_matrix opt greedy f m.rows m.cols (m.rows * m.cols) cell (le_refl _) m.rows m.cols ?_ (Nat.mul_ne_zero (by omega) (by omega))]
  · refine ⟨rfl, rfl, by simp, ?_⟩
    intro i row hi
    rw [List.getElem?_map] at hi
    obtain ⟨i', hi', rfl⟩ := Option.map_eq_some_iff.1 hi
    obtain ⟨hlt, rfl⟩ := List.getElem?_eq_some_iff.1 hi'
    simp only [List.length_range] at hlt
    refine ⟨by simp, ?_⟩
    intro j a hj
    rw [List.getElem?_map] at hj
    obtain ⟨j', hj', rfl⟩ := Option.map_eq_some_iff.1 hj
    obtain ⟨hlt', rfl⟩ := List.getElem?_eq_some_iff.1 hj'
    simp only [List.length_range] at hlt'
    simp only [List.getElem_range]
    rw [hcell i j hlt hlt']
    exact (hf i j hlt hlt').2
  · cases greedy with
    | true => rfl
    | false => simpa using hsize

/-- A single value given as the result is read as the value that was written. -/
theorem C82_scalar_roundtrip {α : Type} (f : Scalar → Out α) (c : Cell) : single f (({} : Retval).loadS c).toXloper = f (writeCell c) := by
  obtain ⟨cell, he, hget, _⟩ := C82_layout (({} : Retval).loadS c)
  have hrows : (({} : Retval).loadS c).nRows = 1 := by simp [Retval.nRows, Retval.loadS]
  rw [columns_scalar] at he hget
  rw [hrows] at he
  rw [he]
  have := hget 0 0 (by simp)
  simp only [List.length_singleton, Nat.zero_mul, Nat.add_zero] at this
  simp only [single, List.length_singleton]
  rw [if_pos (by decide), if_neg (by decide), this]
  simp [columnEntry]

theorem unit_roundtrip (c : Char) (h : c.toNat < 256) : fromUnit (toUnit c) = c := by
  unfold fromUnit toUnit
  split_ifs with h1
  · rw [Nat.mod_eq_of_lt h, Char.ofNat_toNat]
  · rw [show (c.toNat + 65280) % 256 = c.toNat by omega, Char.ofNat_toNat]

/-- A text of bytes without a zero, not longer than 65535, is read as it was written; blank it is when it has no characters. -/
theorem C82_text_roundtrip (s : Str) (h1 : ∀ c ∈ s, c.toNat < 256 ∧ c ≠ Char.ofNat 0) (h2 : s.length ≤ 65535) :
    stringOf false (writeCell (.str s)) = .ok s ∧ (blank (writeCell (.str s)) = true ↔ s = []) := by
  have ht : s.take 65535 = s := List.take_of_length_le h2
  constructor
  · show Out.ok (fromPascal ((s.take 65535).map toUnit)) = _
    rw [ht]
    congr 1
    unfold fromPascal
    rw [List.map_map]
    have : s.map (fromUnit ∘ toUnit) = s := by
      conv_rhs => rw [← List.map_id s]
      apply List.map_congr_left
      intro c hc
      exact unit_roundtrip c (h1 c hc).1
    rw [this]
    exact takeWhile_all fun c hc => by simpa using (h1 c hc).2
  · show ((s.take 65535).map toUnit).isEmpty = true ↔ _
    rw [ht]; simp

example : stringOf false (writeCell (.str "Zürich".toList)) = .ok "Zürich".toList := (C82_text_roundtrip _ (by decide) (by decide)).1

/-- Texts with a zero in them, and longer ones, lose what follows. -/
theorem C82_text_violated (s t : Str) (hs : ∀ c ∈ s, c.toNat < 256 ∧ c ≠ Char.ofNat 0) (hl : s.length < 65535) :
    stringOf false (writeCell (.str (s ++ Char.ofNat 0 :: t))) = .ok s := by
  show Out.ok (fromPascal _) = _
  congr 1
  unfold fromPascal
  rw [List.map_map, List.take_append, List.take_of_length_le (by omega), List.map_append]
  have : s.map (fromUnit ∘ toUnit) = s := by
    conv_rhs => rw [← List.map_id s]
    apply List.map_congr_left
    intro c hc
    exact unit_roundtrip c (hs c hc).1
  rw [this, show 65535 - s.length = (65535 - s.length - 1) + 1 by omega, List.take_succ_cons, List.map_cons, List.takeWhile_append_of_pos
    (by intro c hc; simpa using (hs c hc).2), List.takeWhile_cons_of_neg (by decide), List.append_nil]

example : stringOf false (writeCell (.str ("ab".toList ++ Char.ofNat 0 :: "c".toList))) = .ok "ab".toList :=
  C82_text_violated _ _ (by decide) (by decide)

theorem fromExcel_toExcel (d : Date) (h : d.Valid) : fromExcel (toExcel d) = d := by
  obtain ⟨h1, h2⟩ := h
  unfold fromExcel toExcel toU16
  have e : excelOffset = 25568 := rfl
  rw [if_pos (by omega)]
  cases d with
  | mk n =>
    simp only at h1 h2 ⊢
    exact congrArg Date.mk (by omega)

/-- Valid dates are read as they were written; they are visible. -/
theorem C82_date_roundtrip (d : Date) (h : d.Valid) : toDate (.one (writeCell (.date d))) = .ok d ∧ blank (writeCell (.date d)) = false := by
  refine ⟨(C81_date _ _).2 ⟨toExcel d, rfl, ?_, (fromExcel_toExcel d h).symm⟩, rfl⟩
  obtain ⟨h1, h2⟩ := h
  have e : excelOffset = 25568 := rfl
  unfold toExcel
  rw [abs_lt]
  omega

example : (⟨10000⟩ : Date).Valid := by decide

/-- Times up to a part of the day of 1 - 1e-9 are read as they were written. -/
theorem C82_dateTime_roundtrip_partial (t : DateTime) (h : t.date.Valid) (h0 : 0 ≤ t.frac) (h1 : t.frac < 1 - 1 / 1000000000) :
    toDateTime false (.one (writeCell (.dateTime t))) = .ok t := by
  obtain ⟨d, x⟩ := t
  dsimp only at h h0 h1
  have hv := h
  obtain ⟨g1, g2⟩ := h
  have hx1 : x < 1 := by linarith
  have hfl : ⌊(toExcel d : Rat) + x⌋ = toExcel d := by
    rw [Int.floor_eq_iff]; constructor <;> linarith
  have hpos : (0 : Rat) ≤ toExcel d := by
    have : 0 ≤ toExcel d := by unfold toExcel excelOffset; omega
    exact_mod_cast this
  have hle : (toExcel d : Rat) ≤ 100000 := by
    have : toExcel d ≤ 100000 := by unfold toExcel excelOffset; omega
    exact_mod_cast this
  have := C81_dateTime_partial ((toExcel d : Rat) + x) (by linarith) (by linarith) (by rw [hfl]; linarith)
  rw [hfl] at this
  show toDateTime false (.one (.num _)) = _
  rw [this, fromExcel_toExcel d hv, add_sub_cancel_left]

/-- Numbers and truth values are read as they were written, and are visible. -/
theorem C82_number_roundtrip (q : Rat) (b : Bool) :
    (doubleOf (writeCell (.num q)) = .ok q ∧ blank (writeCell (.num q)) = false) ∧
    (boolOf (writeCell (.bool b)) = .ok b ∧ blank (writeCell (.bool b)) = false) ∧
    (∀ n : Int, |n| < 2147483647 → intOf (writeCell (.num n)) = .ok n) := by
  refine ⟨⟨rfl, rfl⟩, ⟨rfl, rfl⟩, ?_⟩
  intro n hn
  refine (C81_int n n).2 ⟨by exact_mod_cast hn, ?_⟩
  rw [sub_self, abs_zero]; norm_num

example : readVector false doubleOf (({} : Retval).loadV [.num 1, .num (1 / 3)]).toXloper = .ok [1, 1 / 3] :=
  C82_vector_roundtrip doubleOf (fun c => match c with | .num q => q | _ => 0) _ (by decide) false (by
    intro c hc
    simp only [List.mem_cons, List.not_mem_nil, or_false] at hc
    rcases hc with rfl | rfl <;> exact ⟨rfl, rfl⟩)

example (m : Nat → Nat → Rat) : toMatrix false false doubleOf (({} : Retval).loadM ⟨2, 3, fun i j => .num (m i j)⟩).toXloper =
    .ok (2, 3, (List.range 2).map fun i => (List.range 3).map fun j => m i j) :=
  C82_matrix_roundtrip doubleOf (fun c => match c with | .num q => q | _ => 0) _ (by simp) (by simp) false false fun _ _ _ _ => ⟨rfl, rfl⟩

/-- A blank entry inside a vector cuts it off when it is read back: the part behind it is lost. -/
theorem C82_blank_entry_violated {α : Type} (f : Scalar → Out α) (g : Cell → α) (u w : List Cell) (h0 : u ≠ [])
    (hf : ∀ c ∈ u, blank (writeCell c) = false ∧ f (writeCell c) = .ok (g c)) :
    readVector false f (({} : Retval).loadV (u ++ .blank :: w)).toXloper = .ok (u.map g) := by
  set v := u ++ Cell.blank :: w with hv
  obtain ⟨cell, he, hget, _⟩ := C82_layout (({} : Retval).loadV v)
  have hrows : (({} : Retval).loadV v).nRows = v.length := by simp [Retval.nRows, Retval.loadV]
  have hlen : v.length = u.length + (w.length + 1) := by simp [hv]
  rw [columns_vector] at he hget
  rw [hrows] at he
  simp only [List.length_singleton, Nat.mul_one] at he hget
  have hcell : ∀ i : Nat, ∀ hi : i < v.length, cell i = writeCell v[i] := by
    intro i hi
    have := hget i 0 Nat.zero_lt_one
    simpa [columnEntry, hi] using this
  have hu : ∀ i : Nat, ∀ hi : i < u.length, cell i = writeCell u[i] := by
    intro i hi
    rw [hcell i (by omega)]
    congr 1
    simp [hv, List.getElem_append_left hi]
  have hb : cell u.length = writeCell .blank := by
    rw [hcell u.length (by omega)]
    congr 1
    simp [hv]
  rw [he, show max v.length 1 = v.length by omega, C81_vector false f v.length 1 v.length cell (Or.inr rfl) (by omega)]
  refine ⟨⟨by rw [List.length_map]; omega, ?_, ?_⟩, ?_, Or.inl (by simpa using h0)⟩
  · intro i hi
    rw [List.length_map] at hi
    rw [hu i hi]
    exact (hf _ (List.getElem_mem hi)).1
  · intro _
    rw [List.length_map, hb]; rfl
  · intro i a hi
    rw [List.getElem?_map] at hi
    obtain ⟨c, hc, rfl⟩ := Option.map_eq_some_iff.1 hi
    obtain ⟨hlt, rfl⟩ := List.getElem?_eq_some_iff.1 hc
    rw [hu i hlt]
    exact (hf _ (List.getElem_mem hlt)).2

end Dal
