import Verif.Matrix.FormatLemmas
import Verif.Matrix.FormatParse

/-! # C57: the matrix format language -/

namespace Dal
open Fmt

variable {E : Type}

/-- What a user of a table sees. -/
def TableShows (t : Table E) (r c : Nat) (f : Nat → Nat → E) : Prop := t.rows = r ∧ t.cols = c ∧ ∀ i j, i < r → j < c → t.at' i j = f i j

theorem Fmt.formatW_spec (d : E) (args : List (Table E)) (w : W) :
    (0 < w.rows args * w.cols args → ∃ t, formatW d args w = .ok t ∧
      TableShows t (w.rows args) (w.cols args) fun i j => (w.sem d args i j).getD d) ∧
    (w.rows args * w.cols args = 0 → formatW d args w = .throws) := by
  refine ⟨fun h => ?_, fun h => by rw [formatW, if_neg (by omega)]⟩
  obtain ⟨t, e, hd⟩ := w.write_spec d args View.start ⟨w.rows args, w.cols args, fun _ _ => d⟩ ⟨fun i j hi hj => by
      simp only [View.row, View.col, View.start]
      refine ⟨?_, ?_, ?_, ?_⟩ <;> omega, fun i j i' j' _ _ _ _ h1 h2 => by
      simp only [View.row, View.col, View.start] at h1 h2
      omega⟩
  refine ⟨t, by rw [formatW, if_pos h, e], hd.rows, hd.cols, fun i j hi hj => ?_⟩
  refine hd.on i j i j hi hj ⟨?_, ?_⟩
  · simp only [View.row, View.start]; omega
  · simp only [View.col, View.start]; omega

/-- **C57.** Every format string that is understood gives, for all argument tables, an output of exactly the declared dimensions, with no write outside it, and in
every cell what the layout has there (the default cell where justification leaves room); if the declared output is empty, it throws. -/
theorem C57_format_writes_the_layout (d : E) (args : List (Table E)) (s : List Char) (w : W) (hw : parse s = .ok w) :
    (0 < w.rows args * w.cols args → ∃ t, format d args s = .ok t ∧
      TableShows t (w.rows args) (w.cols args) fun i j => (w.sem d args i j).getD d) ∧
    (w.rows args * w.cols args = 0 → format d args s = .throws) := by
  have e : format d args s = formatW d args w := by
    unfold parse at hw
    simp only [format, hw]
  rw [e]
  exact formatW_spec d args w

/-- Example: two tables below one another, justified to the right, the second transposed. -/
example : ∃ t, format 0 [(⟨1, 3, fun _ j => (j : Int) + 1⟩ : Table Int), ⟨1, 2, fun _ j => j + 10⟩] "1:2T".toList = .ok t ∧
    TableShows t 3 3 fun i j => [[1, 2, 3], [0, 0, 10], [0, 0, 11]][i]?.bind (·[j]?) |>.getD 0 := by
  obtain ⟨t, e, hr, hc, h⟩ := (C57_format_writes_the_layout 0 [(⟨1, 3, fun _ j => (j : Int) + 1⟩ : Table Int), ⟨1, 2, fun _ j => j + 10⟩]
    "1:2T".toList (.ver true (.cons (.arg 0) (.cons (.tr (.arg 1)) .nil))) rfl).1 (by decide)
  refine ⟨t, e, hr, hc, fun i j hi hj => ?_⟩
  rw [h i j hi hj]
  have hi' : i = 0 ∨ i = 1 ∨ i = 2 := by omega
  have hj' : j = 0 ∨ j = 1 ∨ j = 2 := by omega
  rcases hi' with rfl | rfl | rfl <;> rcases hj' with rfl | rfl | rfl <;> rfl

/-- **C57.** A transposed layout has the dimensions exchanged and shows the cells transposed; transposing twice is the identity. -/
theorem C57_transpose (d : E) (args : List (Table E)) (w : W) :
    ((W.tr w).rows args = w.cols args ∧ (W.tr w).cols args = w.rows args ∧ ∀ i j, (W.tr w).sem d args i j = w.sem d args j i) ∧
    ((W.tr (W.tr w)).rows args = w.rows args ∧ (W.tr (W.tr w)).cols args = w.cols args ∧
      ∀ i j, (W.tr (W.tr w)).sem d args i j = w.sem d args i j) := by
  simp [W.rows, W.cols, W.sem]

/-- **C57.** An inverted layout shows the cells in the opposite order of rows and of columns; inverting twice is the identity. -/
theorem C57_invert (d : E) (args : List (Table E)) (w : W) :
    ((W.inv w).rows args = w.rows args ∧ (W.inv w).cols args = w.cols args ∧
      ∀ i j, (W.inv w).sem d args i j = w.sem d args (w.rows args - 1 - i) (w.cols args - 1 - j)) ∧
    ((W.inv (W.inv w)).rows args = w.rows args ∧ (W.inv (W.inv w)).cols args = w.cols args ∧
      ∀ i j, i < w.rows args → j < w.cols args → (W.inv (W.inv w)).sem d args i j = w.sem d args i j) := by
  refine ⟨by simp [W.rows, W.cols, W.sem], by simp [W.rows], by simp [W.cols], fun i j hi hj => ?_⟩
  simp only [W.sem, W.rows, W.cols]
  rw [Nat.sub_sub_self (by omega), Nat.sub_sub_self (by omega)]

/-- **C57.** Transposing or inverting twice writes the same output. -/
theorem C57_twice_same_output (d : E) (args : List (Table E)) (w : W) (h : 0 < w.rows args * w.cols args) :
    ∃ t t1 t2, formatW d args w = .ok t ∧ formatW d args (.tr (.tr w)) = .ok t1 ∧ formatW d args (.inv (.inv w)) = .ok t2 ∧
      TableShows t1 t.rows t.cols t.at' ∧ TableShows t2 t.rows t.cols t.at' := by
  obtain ⟨t, e, hr, hc, ht⟩ := (formatW_spec d args w).1 h
  obtain ⟨t1, e1, hr1, hc1, ht1⟩ := (formatW_spec d args (.tr (.tr w))).1 (by simpa [W.rows, W.cols] using h)
  obtain ⟨t2, e2, hr2, hc2, ht2⟩ := (formatW_spec d args (.inv (.inv w))).1 (by simpa [W.rows, W.cols] using h)
  have a := (C57_transpose d args w).2
  have b := (C57_invert d args w).2
  refine ⟨t, t1, t2, e, e1, e2, ⟨by rw [hr1, hr, a.1], by rw [hc1, hc, a.2.1], fun i j hi hj => ?_⟩, by rw [hr2, hr, b.1], by rw [hc2, hc, b.2.1],
    fun i j hi hj => ?_⟩
  · rw [hr] at hi
    rw [hc] at hj
    rw [ht1 i j (by rw [a.1]; exact hi) (by rw [a.2.1]; exact hj), ht i j hi hj]
    beta_reduce
    rw [a.2.2 i j]
  · rw [hr] at hi
    rw [hc] at hj
    rw [ht2 i j (by rw [b.1]; exact hi) (by rw [b.2.1]; exact hj), ht i j hi hj]
    beta_reduce
    rw [b.2.2 i j hi hj]

example : ∃ t t1 t2, formatW 0 [(⟨2, 3, fun i j => (10 * i + j : Int)⟩ : Table Int)] (.arg 0) = .ok t ∧
    formatW 0 [(⟨2, 3, fun i j => (10 * i + j : Int)⟩ : Table Int)] (.tr (.tr (.arg 0))) = .ok t1 ∧
    formatW 0 [(⟨2, 3, fun i j => (10 * i + j : Int)⟩ : Table Int)] (.inv (.inv (.arg 0))) = .ok t2 ∧
    TableShows t1 t.rows t.cols t.at' ∧ TableShows t2 t.rows t.cols t.at' :=
  C57_twice_same_output 0 [⟨2, 3, fun i j => (10 * i + j : Int)⟩] (.arg 0) (by decide)

/-- **C57.** A linear layout is one row with the cells of the base row by row. -/
theorem C57_linear (d : E) (args : List (Table E)) (w : W) :
    (W.lin w).rows args = 1 ∧ (W.lin w).cols args = w.rows args * w.cols args ∧
      ∀ i j, i < w.rows args → j < w.cols args → (W.lin w).sem d args 0 (i * w.cols args + j) = w.sem d args i j := by
  refine ⟨by simp [W.rows], by simp [W.cols], fun i j hi hj => ?_⟩
  have hc : 0 < w.cols args := by omega
  have e1 : (i * w.cols args + j) / w.cols args = i := by rw [Nat.add_comm, Nat.add_mul_div_right _ _ hc, Nat.div_eq_of_lt hj, Nat.zero_add]
  have e2 : (i * w.cols args + j) % w.cols args = j := by rw [Nat.add_comm, Nat.add_mul_mod_self_right, Nat.mod_eq_of_lt hj]
  simp only [W.sem, e1, e2]

/-- **C57.** The grammar: digits. -/
theorem C57_parse_digit (c : Char) (h1 : '0' ≤ c) (h2 : c ≤ '9') : parse [c] = .ok (if c = '0' then .cell else .arg (c.toNat - '1'.toNat)) := by
  have hd : c.val.toNat ≥ 48 ∧ c.val.toNat ≤ 57 := ⟨h1, h2⟩
  have hc : ∀ x : Char, (x.val.toNat < 48 ∨ 57 < x.val.toNat) → c ≠ x := by rintro x hx rfl; omega
  have hp : c ≠ '(' := hc _ (by decide)
  have hq : c ≠ ')' := hc _ (by decide)
  have hup : c.toUpper = c := by
    unfold Char.toUpper
    rw [dif_neg]
    rintro ⟨h, _⟩
    have : (97 : Nat) ≤ c.val.toNat := h
    omega
  have ht : ∀ x, c ≠ x → ¬Top x [c] := by
    rintro x hx ⟨a, b, e, _⟩
    cases a with
    | nil => simp at e; exact hx e.1
    | cons y a => simp at e
  have hs : strip [c].length [c] = [c] := strip_last (s := []) hq
  unfold parse
  rw [show [c].length + 1 = 1 + 1 from rfl, newWriter]
  simp only [hs]
  rw [split_one (ht ':' (hc _ (by decide))), split_one (ht ';' (hc _ (by decide))), split_one (ht '.' (hc _ (by decide))),
    split_one (ht ',' (hc _ (by decide)))]
  simp only [List.length_singleton, lt_irrefl, if_false, List.getLast?_singleton]
  rw [if_neg (by rw [hup]; exact hc _ (by decide)), if_neg (by rw [hup]; exact hc _ (by decide)), if_neg (hc _ (by decide)), if_pos ⟨trivial, h1, h2⟩]

example : parse ['3'] = .ok (.arg 2) := C57_parse_digit '3' (by decide) (by decide)

/-- **C57.** The grammar: parentheses around a balanced string do not matter. -/
theorem C57_parse_parentheses {s : List Char} (h : Balanced s) : parse ('(' :: s ++ [')']) = parse s := by
  have e := strip_paren h
  unfold parse
  rw [newWriter, newWriter]
  simp only [e]
  have hl := strip_length s.length s
  generalize strip s.length s = t at hl
  have hlen : ('(' :: s ++ [')']).length = s.length + 2 := by simp
  rw [hlen]
  have hm : ∀ c, 1 < (split c t).length → (split c t).map (newWriter (s.length + 2)) = (split c t).map (newWriter s.length) := by
    intro c hc
    refine List.map_congr_left fun p hp => ?_
    have := split_piece_length hc hp
    rw [newWriter_parse (by omega), newWriter_parse (by omega)]
  have hd : t ≠ [] → newWriter (s.length + 2) t.dropLast = newWriter s.length t.dropLast := by
    intro ht
    have h1 := List.length_pos_iff.mpr ht
    have h2 : t.dropLast.length = t.length - 1 := by simp
    rw [newWriter_parse (by omega), newWriter_parse (by omega)]
  by_cases h1 : 1 < (split ':' t).length
  · rw [if_pos h1, if_pos h1, hm ':' h1]
  rw [if_neg h1, if_neg h1]
  by_cases h2 : 1 < (split ';' t).length
  · rw [if_pos h2, if_pos h2, hm ';' h2]
  rw [if_neg h2, if_neg h2]
  by_cases h3 : 1 < (split '.' t).length
  · rw [if_pos h3, if_pos h3, hm '.' h3]
  rw [if_neg h3, if_neg h3]
  by_cases h4 : 1 < (split ',' t).length
  · rw [if_pos h4, if_pos h4, hm ',' h4]
  rw [if_neg h4, if_neg h4]
  cases hg : t.getLast? with
  | none => rfl
  | some c =>
    have ht : t ≠ [] := by rintro rfl; simp at hg
    simp only [hd ht]

/-- **C57.** The grammar: the suffixes, on a string without separators outside parentheses. -/
theorem C57_parse_suffix {s : List Char} (h : ∀ c ∈ [':', ';', '.', ','], ¬Top c s) :
    parse (s ++ ['T']) = (parse s).wrap .tr ∧ parse (s ++ ['t']) = (parse s).wrap .tr ∧
    parse (s ++ ['I']) = (parse s).wrap .inv ∧ parse (s ++ ['i']) = (parse s).wrap .inv ∧ parse (s ++ ['*']) = (parse s).wrap .lin := by
  have ht : ∀ c ∈ [':', ';', '.', ','], ∀ x, x ≠ c → ¬Top c (s ++ [x]) := by
    rintro c hc x hx ⟨a, b, e, hd⟩
    rcases List.append_eq_append_iff.mp e with ⟨a', e1, e2⟩ | ⟨c', e1, e2⟩
    · cases a' with
      | nil => simp at e2; exact hx e2.1
      | cons y a' => simp at e2
    · cases c' with
      | nil => simp at e2; exact hx e2.1.symm
      | cons y c' =>
        simp only [List.cons_append, List.cons.injEq] at e2
        exact h c hc ⟨a, c', by rw [e1, e2.1], hd⟩
  have hn : newWriter (s.length + 1) s = parse s := newWriter_parse (by omega)
  have key : ∀ x, x ∉ [':', ';', '.', ','] → x ≠ ')' → parse (s ++ [x]) =
      if x.toUpper = 'T' then (parse s).wrap .tr else if x.toUpper = 'I' then (parse s).wrap .inv else if x = '*' then (parse s).wrap .lin
      else if (s ++ [x]).length = 1 ∧ '0' ≤ x ∧ x ≤ '9' then .ok (if x = '0' then .cell else .arg (x.toNat - '1'.toNat)) else .throws := by
    intro x hx hp
    rw [parse, newWriter]
    simp only [strip_last hp]
    have hne : ∀ c ∈ [':', ';', '.', ','], x ≠ c := fun c hc e => hx (e ▸ hc)
    rw [split_one (ht ':' (by simp) x (hne _ (by simp))), split_one (ht ';' (by simp) x (hne _ (by simp))), split_one (ht '.' (by simp) x (hne _ (by simp))),
      split_one (ht ',' (by simp) x (hne _ (by simp)))]
    simp only [List.length_singleton, lt_irrefl, if_false, List.getLast?_concat, List.dropLast_concat]
    rw [show (s ++ [x]).length = s.length + 1 by simp, hn]
  refine ⟨?_, ?_, ?_, ?_, ?_⟩
  · rw [key 'T' (by decide) (by decide), if_pos (by decide)]
  · rw [key 't' (by decide) (by decide), if_pos (by decide)]
  · rw [key 'I' (by decide) (by decide), if_neg (by decide), if_pos (by decide)]
  · rw [key 'i' (by decide) (by decide), if_neg (by decide), if_pos (by decide)]
  · rw [key '*' (by decide) (by decide), if_neg (by decide), if_neg (by decide), if_pos (by decide)]

theorem Fmt.parse_join {sep : Char} (hs : depthOf sep = 0) (p q : List Char) (ps : List (List Char)) (h : ∀ x ∈ p :: q :: ps, depth x = 0 ∧ ¬Top sep x) :
    strip (join sep (p :: q :: ps)).length (join sep (p :: q :: ps)) = join sep (p :: q :: ps) ∧
    split sep (join sep (p :: q :: ps)) = p :: q :: ps ∧
    ((split sep (join sep (p :: q :: ps))).map (newWriter (join sep (p :: q :: ps)).length)) = (p :: q :: ps).map parse := by
  have ht : Top sep (join sep (p :: q :: ps)) := join_top sep (h p (by simp)).1
  have e := split_join sep hs p (q :: ps) h
  refine ⟨strip_top hs ht, e, ?_⟩
  have : (split sep (join sep (p :: q :: ps))).map (newWriter (join sep (p :: q :: ps)).length) = (split sep (join sep (p :: q :: ps))).map parse :=
    List.map_congr_left fun x hx => newWriter_parse (split_piece_length (split_many ht) hx)
  rw [this, e]

/-- **C57.** The grammar: two or more pieces joined by a separator are the layouts of the pieces below one another (`:` to the right, `;` to the left) or side by side
(`.` at the bottom, `,` at the top), the separators binding ever tighter in this order. -/
theorem C57_parse_separators (p q : List Char) (ps : List (List Char)) (hd : ∀ x ∈ p :: q :: ps, depth x = 0) :
    ((∀ x ∈ p :: q :: ps, ¬Top ':' x) →
      parse (join ':' (p :: q :: ps)) = (collect ((p :: q :: ps).map parse)).mapW (.ver true)) ∧
    ((∀ x ∈ p :: q :: ps, ¬Top ':' x ∧ ¬Top ';' x) →
      parse (join ';' (p :: q :: ps)) = (collect ((p :: q :: ps).map parse)).mapW (.ver false)) ∧
    ((∀ x ∈ p :: q :: ps, ¬Top ':' x ∧ ¬Top ';' x ∧ ¬Top '.' x) →
      parse (join '.' (p :: q :: ps)) = (collect ((p :: q :: ps).map parse)).mapW (.hor true)) ∧
    ((∀ x ∈ p :: q :: ps, ¬Top ':' x ∧ ¬Top ';' x ∧ ¬Top '.' x ∧ ¬Top ',' x) →
      parse (join ',' (p :: q :: ps)) = (collect ((p :: q :: ps).map parse)).mapW (.hor false)) := by
  have hj : ∀ c sep : Char, c ≠ sep → depthOf sep = 0 → (∀ x ∈ p :: q :: ps, ¬Top c x) → ¬1 < (split c (join sep (p :: q :: ps))).length := by
    intro c sep hne hs h
    rw [split_length_iff]
    exact join_not_top hne hs _ fun x hx => ⟨hd x hx, h x hx⟩
  refine ⟨fun h => ?_, fun h => ?_, fun h => ?_, fun h => ?_⟩
  · obtain ⟨e1, e2, e3⟩ := parse_join (sep := ':') (by decide) p q ps fun x hx => ⟨hd x hx, h x hx⟩
    rw [parse, newWriter]
    simp only [e1]
    rw [if_pos (by rw [e2]; simp), e3]
  · obtain ⟨e1, e2, e3⟩ := parse_join (sep := ';') (by decide) p q ps fun x hx => ⟨hd x hx, (h x hx).2⟩
    rw [parse, newWriter]
    simp only [e1]
    rw [if_neg (hj ':' ';' (by decide) (by decide) fun x hx => (h x hx).1), if_pos (by rw [e2]; simp), e3]
  · obtain ⟨e1, e2, e3⟩ := parse_join (sep := '.') (by decide) p q ps fun x hx => ⟨hd x hx, (h x hx).2.2⟩
    rw [parse, newWriter]
    simp only [e1]
    rw [if_neg (hj ':' '.' (by decide) (by decide) fun x hx => (h x hx).1), if_neg (hj ';' '.' (by decide) (by decide) fun x hx => (h x hx).2.1),
      if_pos (by rw [e2]; simp), e3]
  · obtain ⟨e1, e2, e3⟩ := parse_join (sep := ',') (by decide) p q ps fun x hx => ⟨hd x hx, (h x hx).2.2.2⟩
    rw [parse, newWriter]
    simp only [e1]
    rw [if_neg (hj ':' ',' (by decide) (by decide) fun x hx => (h x hx).1), if_neg (hj ';' ',' (by decide) (by decide) fun x hx => (h x hx).2.1),
      if_neg (hj '.' ',' (by decide) (by decide) fun x hx => (h x hx).2.2.1), if_pos (by rw [e2]; simp), e3]

/-- Example: the separators in one string. -/
example : parse "1,2;3.(4;0)T".toList = .ok (.ver false (.cons (.hor false (.cons (.arg 0) (.cons (.arg 1) .nil)))
    (.cons (.hor true (.cons (.arg 2) (.cons (.tr (.ver false (.cons (.arg 3) (.cons .cell .nil)))) .nil))) .nil))) := rfl

/-- **C57, violated** for a missing piece: the empty string, a trailing separator, empty parentheses and a suffix alone read the last character of an empty string. -/
theorem C57_missing_piece_violated (d : E) (args : List (Table E)) :
    format d args [] = .ub ∧ format d args "1,".toList = .ub ∧ format d args "()".toList = .ub ∧ format d args "T".toList = .ub :=
  ⟨rfl, rfl, rfl, rfl⟩

end Dal
