import Mathlib.Tactic.Ring
import Mathlib.Tactic.Linarith
import Verif.Matrix.FormatModel

/-! # Lemmas on the matrix format language: parsing -/

namespace Dal.Fmt

/-- Depth of parentheses after a string. -/
def depth : List Char → Int
  | [] => 0
  | c :: s => depthOf c + depth s

/-- An occurrence of `sep` outside all parentheses. -/
def Top (sep : Char) (s : List Char) : Prop := ∃ a b, s = a ++ sep :: b ∧ depth a = 0

/-- Balanced parentheses. -/
def Balanced (s : List Char) : Prop := depth s = 0 ∧ ∀ a b, s = a ++ b → 0 ≤ depth a

/-- `NewWriter` on a string. -/
def parse (s : List Char) : Out W := newWriter (s.length + 1) s

/-- Joining pieces by a separator. -/
def join (sep : Char) : List (List Char) → List Char
  | [] => []
  | [p] => p
  | p :: q :: r => p ++ sep :: join sep (q :: r)

theorem depth_append (a b : List Char) : depth (a ++ b) = depth a + depth b := by
  induction a with
  | nil => simp [depth]
  | cons c s ih => simp only [List.cons_append, depth, ih]; ring

theorem splitLoop_skip (sep : Char) : ∀ (p rest : List Char) (k : Int) (cur : List Char),
    (∀ a b, p = a ++ sep :: b → k + depth a ≠ 0) → splitLoop sep (p ++ rest) k cur = splitLoop sep rest (k + depth p) (cur ++ p)
  | [], rest, k, cur, _ => by simp [depth]
  | c :: p, rest, k, cur, h => by
    have hn : ¬(c = sep ∧ k = 0) := by
      rintro ⟨rfl, rfl⟩
      exact h [] p rfl (by simp [depth])
    rw [List.cons_append, splitLoop, if_neg hn, splitLoop_skip sep p rest]
    · simp only [depth, List.append_assoc, List.singleton_append]
      congr 1
      ring
    · intro a b e
      have := h (c :: a) b (by rw [e]; rfl)
      simp only [depth] at this
      intro h0
      apply this
      linarith

theorem splitLoop_one (sep : Char) : ∀ (p : List Char) (k : Int) (cur : List Char),
    (∀ a b, p = a ++ sep :: b → k + depth a ≠ 0) → splitLoop sep p k cur = [cur ++ p] := fun p k cur h => by
  have := splitLoop_skip sep p [] k cur h
  rw [List.append_nil] at this
  rw [this, splitLoop]

/-- A string without top-level separator is one piece. -/
theorem split_one {sep : Char} {s : List Char} (h : ¬Top sep s) : split sep s = [s] := by
  have := splitLoop_one sep s 0 [] fun a b e h0 => h ⟨a, b, e, by linarith⟩
  simpa [split] using this

theorem splitLoop_ne_nil (sep : Char) : ∀ (s : List Char) (k : Int) (cur : List Char), splitLoop sep s k cur ≠ []
  | [], _, _ => by simp [splitLoop]
  | c :: s, k, cur => by
    rw [splitLoop]
    split
    · simp
    · exact splitLoop_ne_nil sep s _ _

/-- A string with a top-level separator is several pieces. -/
theorem split_many {sep : Char} {s : List Char} (h : Top sep s) : 1 < (split sep s).length := by
  suffices H : ∀ (s : List Char) (k : Int) (cur : List Char), (∃ a b, s = a ++ sep :: b ∧ k + depth a = 0) → 1 < (splitLoop sep s k cur).length by
    obtain ⟨a, b, e, hd⟩ := h
    exact H s 0 [] ⟨a, b, e, by linarith⟩
  intro s
  induction s with
  | nil => rintro k cur ⟨a, b, e, _⟩; cases a <;> cases e
  | cons c s ih =>
    rintro k cur ⟨a, b, e, hd⟩
    rw [splitLoop]
    by_cases hc : c = sep ∧ k = 0
    · rw [if_pos hc]
      have := List.length_pos_iff.mpr (splitLoop_ne_nil sep s k [])
      simp only [List.length_cons]
      omega
    · rw [if_neg hc]
      cases a with
      | nil =>
        simp only [List.nil_append, List.cons.injEq] at e
        exact absurd ⟨e.1, by simpa [depth] using hd⟩ hc
      | cons c' a =>
        simp only [List.cons_append, List.cons.injEq] at e
        refine ih _ _ ⟨a, b, e.2, ?_⟩
        rw [← e.1] at hd
        simp only [depth] at hd
        linarith

theorem split_length_iff {sep : Char} {s : List Char} : 1 < (split sep s).length ↔ Top sep s := by
  constructor
  · intro h
    by_contra hn
    rw [split_one hn] at h
    simp at h
  · exact split_many

/-- Splitting undoes joining. -/
theorem split_join (sep : Char) (hs : depthOf sep = 0) : ∀ (p : List Char) (ps : List (List Char)),
    (∀ q ∈ p :: ps, depth q = 0 ∧ ¬Top sep q) → split sep (join sep (p :: ps)) = p :: ps
  | p, [], h => split_one (h p (by simp)).2
  | p, q :: ps, h => by
    have hp := h p (by simp)
    have ih := split_join sep hs q ps fun x hx => h x (by simp at hx ⊢; tauto)
    unfold split at ih ⊢
    rw [join, splitLoop_skip sep p _ 0 [] (fun a b e h0 => hp.2 ⟨a, b, e, by linarith⟩), hp.1, splitLoop, if_pos ⟨rfl, by simp⟩]
    simp only [List.nil_append, add_zero]
    rw [ih]

theorem Top.append_left {sep : Char} {a b : List Char} (h : Top sep a) : Top sep (a ++ b) := by
  obtain ⟨x, y, e, hd⟩ := h
  exact ⟨x, y ++ b, by rw [e]; simp, hd⟩

theorem join_top (sep : Char) {p q : List Char} {ps : List (List Char)} (hp : depth p = 0) : Top sep (join sep (p :: q :: ps)) :=
  ⟨p, join sep (q :: ps), rfl, hp⟩

/-- A top-level character of the joined string is one of a piece, or the separator. -/
theorem join_not_top {sep c : Char} (hne : c ≠ sep) (hs : depthOf sep = 0) : ∀ (ps : List (List Char)),
    (∀ q ∈ ps, depth q = 0 ∧ ¬Top c q) → ¬Top c (join sep ps)
  | [], _ => by rintro ⟨a, b, e, _⟩; cases a <;> cases e
  | [p], h => (h p (by simp)).2
  | p :: q :: r, h => by
    rintro ⟨a, b, e, hd⟩
    have hp := h p (by simp)
    have ih := join_not_top hne hs (q :: r) fun x hx => h x (by simp at hx ⊢; tauto)
    rw [join] at e
    rcases List.append_eq_append_iff.mp e with ⟨a', e1, e2⟩ | ⟨c', e1, e2⟩
    · -- the occurrence is after p
      cases a' with
      | nil => simp at e2; exact hne e2.1.symm
      | cons x a' =>
        simp only [List.cons_append, List.cons.injEq] at e2
        apply ih
        refine ⟨a', b, e2.2, ?_⟩
        rw [e1, depth_append, hp.1, ← e2.1] at hd
        simp only [depth, hs] at hd
        linarith
    · cases c' with
      | nil => simp at e2; exact hne e2.1
      | cons x c' =>
        simp only [List.cons_append, List.cons.injEq] at e2
        exact hp.2 ⟨a, c', by rw [e1, e2.1], hd⟩

theorem stripScan_suffix : ∀ (s : List Char) (k : Int), ∃ a, s = a ++ stripScan s k
  | [], _ => ⟨[], rfl⟩
  | c :: s, k => by
    rw [stripScan]
    split
    · exact ⟨[], rfl⟩
    · obtain ⟨a, e⟩ := stripScan_suffix s (k + depthOf c)
      exact ⟨c :: a, by rw [List.cons_append, ← e]⟩

/-- A string is stripped only if it is wrapped in parentheses. -/
theorem strip_shape {s : List Char} (h : stripScan s 0 = [')']) : ∃ x, s = '(' :: x ++ [')'] := by
  cases s with
  | nil => simp [stripScan] at h
  | cons c s =>
    rw [stripScan] at h
    simp only [zero_add] at h
    by_cases h0 : depthOf c = 0
    · rw [if_pos h0] at h
      simp only [List.cons.injEq] at h
      rw [h.1] at h0
      exact absurd h0 (by decide)
    · rw [if_neg h0] at h
      obtain ⟨a, e⟩ := stripScan_suffix s (depthOf c)
      rw [h] at e
      by_cases hc : c = '('
      · exact ⟨a, by rw [hc, e]; rfl⟩
      · exfalso
        have hc' : c = ')' := by
          by_contra hn
          exact h0 (by simp [depthOf, hc, hn])
        -- the depth comes from below, so the character that brings it to 0 is an opening parenthesis
        have key : ∀ (s : List Char) (k : Int), k < 0 → stripScan s k ≠ [')'] := by
          intro s
          induction s with
          | nil => intro k _ hh; simp [stripScan] at hh
          | cons x s ih =>
            intro k hk hh
            rw [stripScan] at hh
            by_cases hx : k + depthOf x = 0
            · rw [if_pos hx] at hh
              simp only [List.cons.injEq] at hh
              rw [hh.1] at hx
              simp [depthOf] at hx
              omega
            · rw [if_neg hx] at hh
              refine ih _ ?_ hh
              have : depthOf x ≤ 1 := by unfold depthOf; split <;> (try split) <;> omega
              omega
        exact key s (depthOf c) (by rw [hc']; decide) h

theorem strip_fuel : ∀ (n : Nat) (s : List Char) (f : Nat), s.length ≤ n → s.length ≤ f → strip f s = strip s.length s := by
  intro n
  induction n with
  | zero =>
    intro s f h _
    have : s = [] := List.length_eq_zero_iff.mp (by omega)
    subst this
    cases f <;> simp [strip, stripScan]
  | succ n ih =>
    intro s f h hf
    cases s with
    | nil => cases f <;> simp [strip, stripScan]
    | cons c s =>
      cases f with
      | zero => simp at hf
      | succ f =>
        simp only [List.length_cons] at h hf
        simp only [strip, List.length_cons, List.drop_succ_cons, List.drop_zero]
        split
        · have h1 : s.dropLast.length ≤ s.length := by simp
          rw [ih s.dropLast f (by omega) (by omega), ih s.dropLast s.length (by omega) (by omega)]
        · rfl

theorem strip_noop {s : List Char} (h : stripScan s 0 ≠ [')']) : strip s.length s = s := by
  cases s with
  | nil => rfl
  | cons c s => simp only [List.length_cons, strip]; rw [if_neg h]

theorem strip_length (f : Nat) : ∀ s : List Char, (strip f s).length ≤ s.length := by
  induction f with
  | zero => intro s; simp [strip]
  | succ f ih =>
    intro s
    rw [strip]
    split
    · refine le_trans (ih _) ?_
      simp
      omega
    · exact le_refl _

theorem strip_last {s : List Char} {c : Char} (hc : c ≠ ')') : strip (s ++ [c]).length (s ++ [c]) = s ++ [c] := by
  refine strip_noop fun h => ?_
  obtain ⟨a, e⟩ := stripScan_suffix (s ++ [c]) 0
  rw [h] at e
  have := congrArg List.getLast? e
  simp at this
  exact hc this

theorem stripScan_stop (a b : List Char) : ∀ k : Int, (∃ x y, a = x ++ y ∧ y ≠ a ∧ k + depth x = 0) → ∃ z, stripScan (a ++ b) k = z ++ b ∧ z ≠ [] := by
  induction a with
  | nil => rintro k ⟨x, y, e, hy, _⟩; simp at e; exact absurd e.2 hy
  | cons c a ih =>
    rintro k ⟨x, y, e, hy, hd⟩
    rw [List.cons_append, stripScan]
    by_cases h0 : k + depthOf c = 0
    · rw [if_pos h0]; exact ⟨c :: a, rfl, by simp⟩
    · rw [if_neg h0]
      cases x with
      | nil => simp at e; exact absurd e.symm hy
      | cons c' x =>
        simp only [List.cons_append, List.cons.injEq] at e
        rw [← e.1] at hd
        simp only [depth] at hd
        refine ih _ ⟨x, y, e.2, ?_, by linarith⟩
        rintro rfl
        have : x = [] := by
          have := congrArg List.length e.2
          simp at this
          exact this
        rw [this] at hd
        simp only [depth] at hd
        exact h0 (by linarith)

/-- A string with a character outside all parentheses which is not itself a parenthesis is not stripped. -/
theorem strip_top {s : List Char} {c : Char} (hc : depthOf c = 0) (h : Top c s) : strip s.length s = s := by
  refine strip_noop fun hs => ?_
  obtain ⟨a, b, e, hd⟩ := h
  by_cases ha : a = []
  · subst ha
    rw [e, List.nil_append, stripScan] at hs
    simp only [zero_add, hc, if_true, List.cons.injEq] at hs
    rw [hs.1] at hc
    exact absurd hc (by decide)
  · obtain ⟨z, ez, hz⟩ := stripScan_stop a (c :: b) 0 ⟨a, [], by simp, by intro h; exact ha h.symm, by linarith⟩
    rw [e, ez] at hs
    cases z with
    | nil => exact hz rfl
    | cons x z =>
      have := congrArg List.length hs
      simp at this

/-- Parentheses around a balanced string are stripped. -/
theorem strip_paren {s : List Char} (h : Balanced s) : strip ('(' :: s ++ [')']).length ('(' :: s ++ [')']) = strip s.length s := by
  have key : ∀ (s : List Char) (k : Int), (∀ a b, s = a ++ b → 0 < k + depth a) → k + depth s = 1 → stripScan (s ++ [')']) k = [')'] := by
    intro s
    induction s with
    | nil =>
      intro k _ hk
      simp only [List.nil_append, stripScan, depth] at hk ⊢
      rw [if_pos]
      have : depthOf ')' = -1 := by decide
      rw [this]
      linarith
    | cons c s ih =>
      intro k hp hk
      rw [List.cons_append, stripScan]
      have h1 := hp [c] s rfl
      simp only [depth] at h1
      rw [if_neg (by linarith)]
      refine ih _ (fun a b e => ?_) ?_
      · have := hp (c :: a) b (by rw [e]; rfl)
        simp only [depth] at this
        linarith
      · simp only [depth] at hk
        linarith
  have hs : stripScan ('(' :: s ++ [')']) 0 = [')'] := by
    rw [List.cons_append, stripScan]
    have : depthOf '(' = 1 := by decide
    simp only [this, zero_add]
    rw [if_neg (by decide)]
    refine key s 1 (fun a b e => ?_) ?_
    · have := h.2 a b e
      linarith
    · rw [h.1]; norm_num
  have hl : ('(' :: s ++ [')']).length = (s.length + 1) + 1 := by simp
  rw [hl, strip, if_pos hs]
  have : (('(' :: s ++ [')']).drop 1).dropLast = s := by simp
  rw [this]
  exact strip_fuel s.length s (s.length + 1) (le_refl _) (by omega)

theorem splitLoop_piece_length (sep : Char) : ∀ (s : List Char) (k : Int) (cur : List Char), ∀ p ∈ splitLoop sep s k cur,
    p.length ≤ cur.length + s.length
  | [], k, cur, p, h => by simp [splitLoop] at h; simp [h]
  | c :: s, k, cur, p, h => by
    rw [splitLoop] at h
    split at h
    · rcases List.mem_cons.mp h with rfl | h
      · simp
      · have := splitLoop_piece_length sep s k [] p h
        simp at this ⊢
        omega
    · have := splitLoop_piece_length sep s _ _ p h
      simp at this ⊢
      omega

theorem split_piece_length {sep : Char} {s p : List Char} (h : 1 < (split sep s).length) (hp : p ∈ split sep s) : p.length < s.length := by
  obtain ⟨a, b, e, hd⟩ := split_length_iff.mp h
  suffices H : ∀ (s : List Char) (k : Int) (cur : List Char), (∃ a b, s = a ++ sep :: b ∧ k + depth a = 0) → ∀ p ∈ splitLoop sep s k cur,
      p.length < cur.length + s.length by
    simpa using H s 0 [] ⟨a, b, e, by linarith⟩ p hp
  intro s
  induction s with
  | nil => rintro k cur ⟨a, b, e, _⟩; cases a <;> cases e
  | cons c s ih =>
    rintro k cur ⟨a, b, e, hd⟩ p hp
    rw [splitLoop] at hp
    by_cases hc : c = sep ∧ k = 0
    · rw [if_pos hc] at hp
      rcases List.mem_cons.mp hp with rfl | hp
      · simp
      · have := splitLoop_piece_length sep s k [] p hp
        simp at this ⊢
        omega
    · rw [if_neg hc] at hp
      cases a with
      | nil =>
        simp only [List.nil_append, List.cons.injEq] at e
        exact absurd ⟨e.1, by simpa [depth] using hd⟩ hc
      | cons c' a =>
        simp only [List.cons_append, List.cons.injEq] at e
        have := ih (k + depthOf c) (cur ++ [c]) ⟨a, b, e.2, by rw [← e.1] at hd; simp only [depth] at hd; linarith⟩ p hp
        simp at this ⊢
        omega

theorem newWriter_fuel : ∀ (n : Nat) (s : List Char) (f : Nat), s.length ≤ n → s.length < f → newWriter f s = parse s := by
  intro n
  induction n with
  | zero =>
    intro s f h hf
    have : s = [] := List.length_eq_zero_iff.mp (by omega)
    subst this
    obtain ⟨f, rfl⟩ : ∃ g, f = g + 1 := ⟨f - 1, by simp at hf; omega⟩
    simp [parse, newWriter, strip, split, splitLoop]
  | succ n ih =>
    intro s f h hf
    obtain ⟨f, rfl⟩ : ∃ g, f = g + 1 := ⟨f - 1, by omega⟩
    unfold parse
    rw [newWriter, newWriter]
    have hl := strip_length s.length s
    generalize strip s.length s = t at hl
    have hm : ∀ c, 1 < (split c t).length → (split c t).map (newWriter f) = (split c t).map (newWriter s.length) := by
      intro c hc
      refine List.map_congr_left fun p hp => ?_
      have := split_piece_length hc hp
      rw [ih p f (by omega) (by omega), ih p s.length (by omega) (by omega)]
    have hd : t ≠ [] → newWriter f t.dropLast = newWriter s.length t.dropLast := by
      intro ht
      have h1 := List.length_pos_iff.mpr ht
      have h2 : t.dropLast.length = t.length - 1 := by simp
      rw [ih t.dropLast f (by omega) (by omega), ih t.dropLast s.length (by omega) (by omega)]
    by_cases h1 : 1 < (split ':' t).length
    · rw [if_pos h1, if_pos h1, hm ':' h1]
    rw [if_neg h1, if_neg h1]
    by_cases h2 : 1 < (split ';' t).length
    · rw [if_pos h2, if_pos h2, hm ';' h2]
    rw [if_neg h2, if_neg h2]
    by_cases h3 : 1 < (split '.' t).length
    · rw [if_pos h3, if_pos h3, hm '.' h3]
    rw [if_neg h3, if_neg h3]
    by_cases h4 : 1 < (split ',' t).length
    · rw [if_pos h4, if_pos h4, hm ',' h4]
    rw [if_neg h4, if_neg h4]
    cases hg : t.getLast? with
    | none => rfl
    | some c =>
      have ht : t ≠ [] := by rintro rfl; simp at hg
      simp only [hd ht]

theorem newWriter_parse {s : List Char} {f : Nat} (h : s.length < f) : newWriter f s = parse s := newWriter_fuel s.length s f (le_refl _) h

end Dal.Fmt
