import Verif.Script.ParserTerm

/-! # C27: the script parser reads what the grammar says -/

namespace Dal

open Dal.Script

variable {D : Type}

/-- C27: every sum, product, power and sign derived from the grammar — left-associating, `*` and `/` above `+` and `-`, `^` above
these, signs above `^`, parentheses and functions above all — is parsed to the tree of its derivation, whole. -/
theorem C27_expression (v : PEnv D) (ts : List Tok) (x : PExpr D) (h : G1 v ts x) :
    ∃ N, ∀ n, N ≤ n → pExpr v n ts 0 = .ok (x, []) := by
  have := h.done [] 0 (Nat.le_refl _) (Or.inl rfl)
  rw [List.append_nil] at this
  exact this

/-- C27: every event derived from the grammar, with its assignments, payments and nested conditional blocks, is parsed to the
tree of its derivation. -/
theorem C27_event (v : PEnv D) (ts : List Tok) (ss : PStmts D) (h : GStmts v ts ss) :
    ∃ N, ∀ n, N ≤ n → pEvent v n ts = .ok ss := by
  have := GStmts.runs h .top [] 0 (Nat.le_refl _) (Or.inl rfl) (Or.inl rfl) rfl
  rw [List.append_nil] at this
  exact Runs.bind (g := fun (q : PStmts D × List Tok) _ => .ok q.1) this (Runs.const _)

/-- C27: the grammar is unambiguous: no text has two trees. -/
theorem C27_unambiguous (v : PEnv D) (ts : List Tok) (x y : PExpr D) (hx : G1 v ts x) (hy : G1 v ts y) : x = y := by
  have := Runs.unique (C27_expression v ts x hx) (C27_expression v ts y hy)
  injection this with this
  exact (Prod.mk.injEq .. ▸ this).1

/-- C27: nor has an event. -/
theorem C27_unambiguous_event (v : PEnv D) (ts : List Tok) (x y : PStmts D) (hx : GStmts v ts x) (hy : GStmts v ts y) : x = y := by
  have := Runs.unique (C27_event v ts x hx) (C27_event v ts y hy)
  injection this

/-- C27: the parser stops on any tokens at all: a depth of calls linear in their number is never exceeded. -/
theorem C27_stops (v : PEnv D) (ts : List Tok) (n : Nat) (hn : 10 * ts.length + 13 ≤ n) : pEvent v n ts ≠ .fuel := by
  have h := (allFineS (v := v) n).pStmts .top ts 0 hn
  unfold pEvent
  intro hf
  cases hp : pStmts v n .top ts 0 with
  | fuel =>
    rw [hp] at h
    exact h
  | ok q => simp [hp, Res.bind] at hf
  | throw => simp [hp, Res.bind] at hf
  | ub => simp [hp, Res.bind] at hf

/-! ### Printing -/

/-- Trees of plain expressions: what a text without `MAX` and `MIN` of several arguments can say. -/
inductive Plain (v : PEnv D) : PExpr D → Prop
  | add {a b} : Plain v a → Plain v b → Plain v (.bin .add a b none)
  | sub {a b} : Plain v a → Plain v b → Plain v (.bin .sub a b none)
  | mul {a b} : Plain v a → Plain v b → Plain v (.bin .mul a b none)
  | div {a b} : Plain v a → Plain v b → Plain v (.bin .div a b none)
  | pow {a b} : Plain v a → Plain v b → Plain v (.bin .pow a b none)
  | max {a b} : Plain v a → Plain v b → Plain v (.bin .max a b none)
  | min {a b} : Plain v a → Plain v b → Plain v (.bin .min a b none)
  | uplus {a} : Plain v a → Plain v (.un .uplus a none)
  | uminus {a} : Plain v a → Plain v (.un .uminus a none)
  | log {a} : Plain v a → Plain v (.un .log a none)
  | sqrt {a} : Plain v a → Plain v (.un .sqrt a none)
  | exp {a} : Plain v a → Plain v (.un .exp a none)
  | const {c} : Plain v (.const c)
  | var {s} : v.cvs s = none → Plain v (.var s none)
  | cvar {s c} : v.cvs s = some c → Plain v (.constVar s c)
  | spot : Plain v .spot

/-- How tightly the outermost operator binds. -/
def level : PExpr D → Nat
  | .bin .add _ _ _ => 1
  | .bin .sub _ _ _ => 1
  | .bin .mul _ _ _ => 2
  | .bin .div _ _ _ => 2
  | .bin .pow _ _ _ => 3
  | _ => 4

/-- Parentheses. -/
def inParens (ts : List Tok) : List Tok := .lp :: (ts ++ [.rp])

/-- Parentheses only when the context binds more tightly. -/
def wrap (ctx lv : Nat) (ts : List Tok) : List Tok := if ctx ≤ lv then ts else inParens ts

/-- The text with as few parentheses as the precedences allow. -/
def show' (lit : D → List Char) : PExpr D → List Tok
  | .bin .add a b _ => wrap 1 (level a) (show' lit a) ++ .plus :: wrap 2 (level b) (show' lit b)
  | .bin .sub a b _ => wrap 1 (level a) (show' lit a) ++ .minus :: wrap 2 (level b) (show' lit b)
  | .bin .mul a b _ => wrap 2 (level a) (show' lit a) ++ .times :: wrap 3 (level b) (show' lit b)
  | .bin .div a b _ => wrap 2 (level a) (show' lit a) ++ .divide :: wrap 3 (level b) (show' lit b)
  | .bin .pow a b _ => wrap 3 (level a) (show' lit a) ++ .caret :: wrap 4 (level b) (show' lit b)
  | .bin .max a b _ => .kw .max_ :: inParens (show' lit a ++ .comma :: show' lit b)
  | .bin .min a b _ => .kw .min_ :: inParens (show' lit a ++ .comma :: show' lit b)
  | .un .uplus a _ => .plus :: wrap 4 (level a) (show' lit a)
  | .un .uminus a _ => .minus :: wrap 4 (level a) (show' lit a)
  | .un .log a _ => .kw .log_ :: inParens (show' lit a)
  | .un .sqrt a _ => .kw .sqrt_ :: inParens (show' lit a)
  | .un .exp a _ => .kw .exp_ :: inParens (show' lit a)
  | .extra m _ _ => show' lit m
  | .const c => [.num (lit c)]
  | .var s _ => [.name s]
  | .constVar s _ => [.name s]
  | .spot => [.kw .spot, .lp, .rp]

/-- The text with parentheses around every operand. -/
def showAll (lit : D → List Char) : PExpr D → List Tok
  | .bin .add a b _ => inParens (showAll lit a) ++ .plus :: inParens (showAll lit b)
  | .bin .sub a b _ => inParens (showAll lit a) ++ .minus :: inParens (showAll lit b)
  | .bin .mul a b _ => inParens (showAll lit a) ++ .times :: inParens (showAll lit b)
  | .bin .div a b _ => inParens (showAll lit a) ++ .divide :: inParens (showAll lit b)
  | .bin .pow a b _ => inParens (showAll lit a) ++ .caret :: inParens (showAll lit b)
  | .bin .max a b _ => .kw .max_ :: inParens (showAll lit a ++ .comma :: showAll lit b)
  | .bin .min a b _ => .kw .min_ :: inParens (showAll lit a ++ .comma :: showAll lit b)
  | .un .uplus a _ => .plus :: inParens (showAll lit a)
  | .un .uminus a _ => .minus :: inParens (showAll lit a)
  | .un .log a _ => .kw .log_ :: inParens (showAll lit a)
  | .un .sqrt a _ => .kw .sqrt_ :: inParens (showAll lit a)
  | .un .exp a _ => .kw .exp_ :: inParens (showAll lit a)
  | .extra m _ _ => showAll lit m
  | .const c => [.num (lit c)]
  | .var s _ => [.name s]
  | .constVar s _ => [.name s]
  | .spot => [.kw .spot, .lp, .rp]

/-- Derived at the level of its outermost operator. -/
private def AtLevel (v : PEnv D) (ts : List Tok) (x : PExpr D) : Nat → Prop
  | 1 => G1 v ts x
  | 2 => G2 v ts x
  | 3 => G3 v ts x
  | _ => G4 v ts x

private theorem AtLevel.g1 {v : PEnv D} {ts : List Tok} {x : PExpr D} {l : Nat} (h : AtLevel v ts x l) : G1 v ts x := by
  unfold AtLevel at h
  split at h
  · exact h
  · exact .up h
  · exact .up (.up h)
  · exact .up (.up (.up h))

private theorem level_cases (x : PExpr D) : level x = 1 ∨ level x = 2 ∨ level x = 3 ∨ level x = 4 := by
  unfold level
  split <;> simp

private theorem wrap1 {v : PEnv D} {ts : List Tok} {x : PExpr D} (h : AtLevel v ts x (level x)) : G1 v (wrap 1 (level x) ts) x := by
  unfold wrap
  split
  · exact h.g1
  · exact .up (.up (.up (.paren h.g1)))

private theorem wrap2 {v : PEnv D} {ts : List Tok} {x : PExpr D} (h : AtLevel v ts x (level x)) : G2 v (wrap 2 (level x) ts) x := by
  rcases level_cases x with hl | hl | hl | hl <;> rw [hl] at h ⊢
  · exact .up (.up (.paren h.g1))
  · exact h
  · exact .up h
  · exact .up (.up h)

private theorem wrap3 {v : PEnv D} {ts : List Tok} {x : PExpr D} (h : AtLevel v ts x (level x)) : G3 v (wrap 3 (level x) ts) x := by
  rcases level_cases x with hl | hl | hl | hl <;> rw [hl] at h ⊢
  · exact .up (.paren h.g1)
  · exact .up (.paren h.g1)
  · exact h
  · exact .up h

private theorem wrap4 {v : PEnv D} {ts : List Tok} {x : PExpr D} (h : AtLevel v ts x (level x)) : G4 v (wrap 4 (level x) ts) x := by
  rcases level_cases x with hl | hl | hl | hl <;> rw [hl] at h ⊢
  · exact .paren h.g1
  · exact .paren h.g1
  · exact .paren h.g1
  · exact h

private theorem show_derives (v : PEnv D) (lit : D → List Char) (hlit : ∀ c, v.toD (.num (lit c)) = some c) (x : PExpr D)
    (h : Plain v x) : AtLevel v (show' lit x) x (level x) := by
  induction h with
  | add _ _ iha ihb => exact .add (wrap1 iha) (wrap2 ihb)
  | sub _ _ iha ihb => exact .sub (wrap1 iha) (wrap2 ihb)
  | mul _ _ iha ihb => exact .mul (wrap2 iha) (wrap3 ihb)
  | div _ _ iha ihb => exact .div (wrap2 iha) (wrap3 ihb)
  | pow _ _ iha ihb => exact .pow (wrap3 iha) (wrap4 ihb)
  | max _ _ iha ihb => exact .max (l := []) (.more iha.g1 (.one ihb.g1)) (by simp)
  | min _ _ iha ihb => exact .min (l := []) (.more iha.g1 (.one ihb.g1)) (by simp)
  | uplus _ ih => exact .plus (wrap4 ih)
  | uminus _ ih => exact .minus (wrap4 ih)
  | log _ ih => exact .log ih.g1
  | sqrt _ ih => exact .sqrt ih.g1
  | exp _ ih => exact .exp ih.g1
  | const => exact .num (hlit _)
  | var h => exact .var h
  | cvar h => exact .cvar h
  | spot => exact .spot

private theorem showAll_derives (v : PEnv D) (lit : D → List Char) (hlit : ∀ c, v.toD (.num (lit c)) = some c) (x : PExpr D)
    (h : Plain v x) : G1 v (showAll lit x) x := by
  induction h with
  | add _ _ iha ihb => exact .add (.up (.up (.up (.paren iha)))) (.up (.up (.paren ihb)))
  | sub _ _ iha ihb => exact .sub (.up (.up (.up (.paren iha)))) (.up (.up (.paren ihb)))
  | mul _ _ iha ihb => exact .up (.mul (.up (.up (.paren iha))) (.up (.paren ihb)))
  | div _ _ iha ihb => exact .up (.div (.up (.up (.paren iha))) (.up (.paren ihb)))
  | pow _ _ iha ihb => exact .up (.up (.pow (.up (.paren iha)) (.paren ihb)))
  | max _ _ iha ihb => exact .up (.up (.up (.max (l := []) (.more iha (.one ihb)) (by simp))))
  | min _ _ iha ihb => exact .up (.up (.up (.min (l := []) (.more iha (.one ihb)) (by simp))))
  | uplus _ ih => exact .up (.up (.up (.plus (.paren ih))))
  | uminus _ ih => exact .up (.up (.up (.minus (.paren ih))))
  | log _ ih => exact .up (.up (.up (.log ih)))
  | sqrt _ ih => exact .up (.up (.up (.sqrt ih)))
  | exp _ ih => exact .up (.up (.up (.exp ih)))
  | const => exact .up (.up (.up (.num (hlit _))))
  | var h => exact .up (.up (.up (.var h)))
  | cvar h => exact .up (.up (.up (.cvar h)))
  | spot => exact .up (.up (.up .spot))

/-- C27: the text of a tree with as few parentheses as the usual precedences allow is parsed back to the tree. -/
theorem C27_minimal_parentheses (v : PEnv D) (lit : D → List Char) (hlit : ∀ c, v.toD (.num (lit c)) = some c) (x : PExpr D)
    (h : Plain v x) : ∃ N, ∀ n, N ≤ n → pExpr v n (show' lit x) 0 = .ok (x, []) :=
  C27_expression v _ _ (show_derives v lit hlit x h).g1

/-- C27: the fully parenthesised text of a tree is parsed back to the tree. -/
theorem C27_all_parentheses (v : PEnv D) (lit : D → List Char) (hlit : ∀ c, v.toD (.num (lit c)) = some c) (x : PExpr D)
    (h : Plain v x) : ∃ N, ∀ n, N ≤ n → pExpr v n (showAll lit x) 0 = .ok (x, []) :=
  C27_expression v _ _ (showAll_derives v lit hlit x h)

/-! ### Tokens -/

/-- A digit or a dot. -/
def numStart (c : Char) : Bool := c == '.' || ('0'.toNat ≤ c.toNat && c.toNat ≤ '9'.toNat)

/-- Texts that words can have: letters, digits, `_` and dots; numbers start with a digit or a dot, names do not and are no
reserved words. -/
def Tok.Valid : Tok → Prop
  | .num s => (∀ c ∈ s, isWordChar c = true) ∧ ∃ c r, s = c :: r ∧ numStart c = true
  | .name s => (∀ c ∈ s, isWordChar c = true) ∧ (∃ c r, s = c :: r ∧ numStart c = false) ∧ ∀ k : Kw, k.text ≠ upper s
  | _ => True

/-- Tokens with a blank after each. -/
def render (ts : List Tok) : List Char := ts.flatMap fun t => Tok.text t ++ [' ']

private theorem lex_word : ∀ (w buf rest : List Char), (∀ c ∈ w, isWordChar c = true) →
    lex buf false (w ++ rest) = lex (buf ++ w) false rest := by
  intro w
  induction w with
  | nil => intro buf rest _; simp
  | cons c w ih =>
    intro buf rest h
    rw [List.cons_append, lex, if_pos (h c (List.mem_cons_self ..)), ih _ _ (fun d hd => h d (List.mem_cons_of_mem _ hd))]
    simp

private theorem lex_blank (buf rest : List Char) : lex buf false (' ' :: rest) = flush buf ++ lex [] false rest := by
  rw [lex, if_neg (by decide), if_neg (by simp), if_neg (by decide)]

private theorem lex_word_blank {w : List Char} (hw : w ≠ []) (h : ∀ c ∈ w, isWordChar c = true) (rest : List Char) :
    lex [] false (w ++ ' ' :: rest) = w :: lex [] false rest := by
  rw [lex_word w [] _ h, lex_blank, List.nil_append, flush, if_neg hw]
  rfl

private theorem lex_single {c : Char} (h1 : isWordChar c = false) (h2 : isSingle c = true) (rest : List Char) :
    lex [] false (c :: ' ' :: rest) = [c] :: lex [] false rest := by
  rw [lex, if_neg (by simp [h1]), if_neg (by simp), if_pos h2, lex_blank]
  simp [flush]

private theorem lex_double {c : Char} (h1 : isWordChar c = false) (h2 : c = '!' ∨ c = '>' ∨ c = '<') (rest : List Char) :
    lex [] false (c :: '=' :: ' ' :: rest) = [c, '='] :: lex [] false rest := by
  rw [lex, if_neg (by simp [h1]), if_pos ⟨h2, rfl⟩, lex, lex_blank]
  simp [flush]

private theorem word_head {s : List Char} {c : Char} {r : List Char} (hs : s = c :: r) (h : isWordChar c = true) (d : Char) (t : List Char)
    (hd : isWordChar d = false) : s ≠ d :: t := by
  subst hs
  intro he
  injection he with he _
  rw [he, hd] at h
  cases h

private theorem classify_word {c : Char} {r : List Char} (h : isWordChar c = true) :
    classify (c :: r) = if numStart c then some (.num (c :: r)) else
      match Kw.all.find? fun k => decide (k.text = upper (c :: r)) with
      | some k => some (.kw k)
      | none => some (.name (c :: r)) := by
  have hn := word_head (s := c :: r) rfl h
  unfold classify
  rw [if_neg (hn _ _ (by decide)), if_neg (hn _ _ (by decide)), if_neg (hn _ _ (by decide)), if_neg (hn _ _ (by decide)),
    if_neg (hn _ _ (by decide)), if_neg (hn _ _ (by decide)), if_neg (hn _ _ (by decide)), if_neg (hn _ _ (by decide)),
    if_neg (hn _ _ (by decide)), if_neg (hn _ _ (by decide)), if_neg (hn _ _ (by decide)), if_neg (hn _ _ (by decide)),
    if_neg (hn _ _ (by decide)), if_neg (hn _ _ (by decide)), if_neg (hn _ _ (by decide)), if_neg (hn _ _ (by decide))]
  rfl

private theorem lex_token (t : Tok) (h : Tok.Valid t) (rest : List Char) :
    lex [] false (Tok.text t ++ ' ' :: rest) = Tok.text t :: lex [] false rest ∧ classify (Tok.text t) = some t := by
  cases t with
  | num s =>
    obtain ⟨hw, c, r, rfl, hc⟩ := h
    refine ⟨lex_word_blank (by simp) hw rest, ?_⟩
    show classify (c :: r) = _
    rw [classify_word (hw c (List.mem_cons_self ..)), if_pos hc]
  | name s =>
    obtain ⟨hw, ⟨c, r, rfl, hc⟩, hk⟩ := h
    refine ⟨lex_word_blank (by simp) hw rest, ?_⟩
    show classify (c :: r) = _
    rw [classify_word (hw c (List.mem_cons_self ..)), if_neg (by simp [hc])]
    have : (Kw.all.find? fun k => decide (k.text = upper (c :: r))) = none := by
      rw [List.find?_eq_none]
      intro k _
      simpa using hk k
    rw [this]
  | kw k =>
    refine ⟨lex_word_blank (by cases k <;> decide) (by cases k <;> decide) rest, ?_⟩
    cases k <;> decide +kernel
  | cmp c =>
    cases c
    · exact ⟨lex_single (by decide) (by decide) rest, by decide⟩
    · exact ⟨lex_double (by decide) (by decide) rest, by decide⟩
    · exact ⟨lex_single (by decide) (by decide) rest, by decide⟩
    · exact ⟨lex_single (by decide) (by decide) rest, by decide⟩
    · exact ⟨lex_double (by decide) (by decide) rest, by decide⟩
    · exact ⟨lex_double (by decide) (by decide) rest, by decide⟩
  | plus => exact ⟨lex_single (by decide) (by decide) rest, by decide⟩
  | minus => exact ⟨lex_single (by decide) (by decide) rest, by decide⟩
  | times => exact ⟨lex_single (by decide) (by decide) rest, by decide⟩
  | divide => exact ⟨lex_single (by decide) (by decide) rest, by decide⟩
  | caret => exact ⟨lex_single (by decide) (by decide) rest, by decide⟩
  | lp => exact ⟨lex_single (by decide) (by decide) rest, by decide⟩
  | rp => exact ⟨lex_single (by decide) (by decide) rest, by decide⟩
  | comma => exact ⟨lex_single (by decide) (by decide) rest, by decide⟩
  | semi => exact ⟨lex_single (by decide) (by decide) rest, by decide⟩
  | colon => exact ⟨lex_single (by decide) (by decide) rest, by decide⟩

/-- C27: tokens written with a blank after each are read back. -/
theorem C27_tokens (ts : List Tok) (h : ∀ t ∈ ts, Tok.Valid t) : tokens (render ts) = ts := by
  induction ts with
  | nil => rfl
  | cons t ts ih =>
    have h1 := lex_token t (h t (List.mem_cons_self ..)) (render ts)
    have h2 : render (t :: ts) = Tok.text t ++ ' ' :: render ts := by
      simp [render]
    rw [tokens, h2, h1.1, List.filterMap_cons, h1.2]
    exact congrArg _ (ih fun u hu => h u (List.mem_cons_of_mem _ hu))

/-! ### What the parser accepts beyond the grammar, rejects within the language, or reads out of range -/

/-- An environment for the witnesses: numbers are their number of digits. -/
def witEnv : PEnv Nat where
  toD := fun t => match t with | .num s => some s.length | _ => none
  cvs := fun _ => none
  dcf := fun _ _ => some none
  eps0 := 0
  zero := 0

/-- C27, not so: what follows an expression inside parentheses is dropped without a word: `( a 7 )` is read as `a`, for every
expression `a` and number. -/
theorem C27_leftover_violated (v : PEnv D) (a : List Tok) (x : PExpr D) (h : G1 v a x) (s : List Char) :
    ∃ N, ∀ n, N ≤ n → pExpr v n (.lp :: (a ++ [.num s, .rp])) 0 = .ok (x, []) := by
  have hb : Bal (a ++ [.num s]) := h.bal.append (Bal.nil.cons (by simp) (by simp))
  have hf := findClose_paren hb [] 0 (Nat.le_refl _)
  have h1 : Runs (fun n => pExpr v n (a ++ [.num s, .rp]) 1) (.ok (x, [.num s, .rp])) :=
    h.done _ 1 (by simp) (Or.inr ⟨_, _, rfl, by simp⟩)
  rw [List.append_assoc] at hf
  refine Runs.succ ?_
  simp only [pExpr]
  refine Runs.bind (a := (x, [])) ?_ (loop1_stop (Or.inl rfl))
  refine Runs.succ ?_
  simp only [pL2]
  refine Runs.bind (a := (x, [])) ?_ (loop2_stop (Or.inl rfl))
  refine Runs.succ ?_
  simp only [pL3]
  refine Runs.bind (a := (x, [])) ?_ (loop3_stop (Or.inl rfl))
  refine Runs.succ ?_
  have hf' : findClose 1 (a ++ [.num s, .rp]) 0 = .ok [.rp] := hf
  simp only [pL4, hf', Res.bind_ok]
  exact Runs.bind (g := fun (q : PExpr D × List Tok) _ => .ok (q.1, [])) h1 (Runs.const _)

/-- C27, not so: a comparison whose left side starts with a parenthesis is refused, because the parenthesis is taken as one around
a condition: `IF (x) > 1 THEN y = 1 END`. -/
theorem C27_parenthesis_comparison_violated :
    pEvent witEnv 200 (tokens "IF (x) > 1 THEN y = 1 END".toList) = .throw := by
  have ht : tokens "IF (x) > 1 THEN y = 1 END".toList = [.kw .if_, .lp, .name ['x'], .rp, .cmp .gt, .num ['1'], .kw .then_,
    .name ['y'], .cmp .eq, .num ['1'], .kw .end_] := by decide +kernel
  rw [ht]
  with_unfolding_all rfl

/-- C27, not so: a comparison at the end of the text makes the parser read beyond the last token: `IF x > 1`. -/
theorem C27_unfinished_if_violated : pEvent witEnv 200 (tokens "IF x > 1".toList) = .ub := by
  have ht : tokens "IF x > 1".toList = [.kw .if_, .name ['x'], .cmp .gt, .num ['1']] := by decide +kernel
  rw [ht]
  with_unfolding_all rfl

/-- C27, not so: `^` is taken as the name of a variable: `^ = 3` and `x = ^` are accepted. -/
theorem C27_caret_violated :
    (pEvent witEnv 200 (tokens "^ = 3".toList) = .ok (.cons (.assign ⟨['^'], false⟩ (.const 1)) .nil)) ∧
      pEvent witEnv 200 (tokens "x = ^".toList) = .ok (.cons (.assign ⟨['x'], false⟩ (.var ['^'] none)) .nil) := by
  have h1 : tokens "^ = 3".toList = [.caret, .cmp .eq, .num ['3']] := by decide +kernel
  have h2 : tokens "x = ^".toList = [.name ['x'], .cmp .eq, .caret] := by decide +kernel
  rw [h1, h2]
  constructor <;> with_unfolding_all rfl

/-- C27, not so: a comma after the last argument is accepted: `MAX(1,2,)`. -/
theorem C27_trailing_comma_violated :
    pExpr witEnv 200 (tokens "MAX(1,22,)".toList) 0 = .ok (.bin .max (.const 1) (.const 2) none, []) := by
  have h1 : tokens "MAX(1,22,)".toList = [.kw .max_, .lp, .num ['1'], .comma, .num ['2', '2'], .comma, .rp] := by decide +kernel
  rw [h1]
  with_unfolding_all rfl

/-! ### The hypotheses hold -/

/-- `x - 1 - y * 2 ^ -3` -/
example : pExpr witEnv 200 (tokens "x - 1 - y * 22 ^ -333".toList) 0 =
    .ok (.bin .sub (.bin .sub (.var ['x'] none) (.const 1) none)
      (.bin .mul (.var ['y'] none) (.bin .pow (.const 2) (.un .uminus (.const 3) none) none) none) none, []) := by
  have h1 : tokens "x - 1 - y * 22 ^ -333".toList = [.name ['x'], .minus, .num ['1'], .minus, .name ['y'], .times, .num ['2', '2'],
    .caret, .minus, .num ['3', '3', '3']] := by decide +kernel
  rw [h1]
  with_unfolding_all rfl

example : G1 witEnv [.name ['x'], .minus, .num ['1'], .minus, .num ['2', '2']]
    (.bin .sub (.bin .sub (.var ['x'] none) (.const 1) none) (.const 2) none) :=
  .sub (a := [.name ['x'], .minus, .num ['1']])
    (.sub (a := [.name ['x']]) (.up (.up (.up (.var rfl)))) (.up (.up (.num rfl)))) (.up (.up (.num rfl)))

example : GStmts witEnv [.kw .if_, .name ['x'], .cmp .gt, .num ['1'], .kw .then_, .name ['y'], .cmp .eq, .num ['1'], .kw .end_]
    (.cons (.ite (cmpMeaning witEnv .gt (.var ['x'] none) (.const 1) 0) (.cons (.assign ⟨['y'], false⟩ (.const 1)) .nil) false .nil [] {}) .nil) :=
  .cons (a := [.kw .if_, .name ['x'], .cmp .gt, .num ['1'], .kw .then_, .name ['y'], .cmp .eq, .num ['1'], .kw .end_])
    (.ifThen (c := [.name ['x'], .cmp .gt, .num ['1']]) (t := [.name ['y'], .cmp .eq, .num ['1']])
      (.up (.up (.cmp (a := [.name ['x']]) (b := [.num ['1']]) (w := []) (.up (.up (.up (.var rfl)))) (.up (.up (.up (.num rfl)))) .none (by decide))))
      (.cons (a := [.name ['y'], .cmp .eq, .num ['1']]) (.assign (.up (.up (.up (.num rfl))))) .nil)) .nil

example : ∃ lit : Nat → List Char, ∀ c, witEnv.toD (.num (lit c)) = some c := ⟨fun c => List.replicate c '1', fun c => by simp [witEnv]⟩

example : Plain witEnv (.bin .sub (.const 1) (.bin .sub (.var ['x'] none) (.const 2) none) none) := .sub .const (.sub (.var rfl) .const)

example : Tok.Valid (.num ['1', '.', '5']) ∧ Tok.Valid (.name ['a', '_']) :=
  ⟨⟨by decide, '1', ['.', '5'], rfl, by decide⟩, ⟨by decide, ⟨'a', ['_'], rfl, by decide⟩, fun k => by cases k <;> decide⟩⟩

end Dal
