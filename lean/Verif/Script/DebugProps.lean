import Verif.Script.DebugModel

/-! # C87: the printed form of scripts -/

namespace Dal

open Debug

/-! ### Specification -/

mutual
/-- A node alone on its line; or its text and an open bracket, the arguments one step to the right with a comma on a line between any two, and a closed bracket. -/
def printed (pre : Str) : Tree → Str
  | .node k .nil => pre ++ ident k ++ ['\n']
  | .node k (.cons t ts) => pre ++ ident k ++ ['(', '\n'] ++ printed (pre ++ ['\t']) t ++ printedMore pre ts ++ pre ++ [')', '\n']
def printedMore (pre : Str) : Trees → Str
  | .nil => []
  | .cons t ts => pre ++ [',', '\n'] ++ printed (pre ++ ['\t']) t ++ printedMore pre ts
end

/-! ### The text of a tree -/

private def texts (pre : Str) : Trees → List Str
  | .nil => []
  | .cons t ts => printed pre t :: texts pre ts

private theorem texts_length (pre : Str) : ∀ ts, (texts pre ts).length = ts.length
  | .nil => rfl
  | .cons t ts => by rw [texts, Trees.length, List.length_cons, texts_length pre ts]

private theorem middle_ok (pre : Str) (last : Str) : ∀ (l : List Str) (str : Str) (s : List Str),
    middleArgs pre l.length str (l ++ last :: s) = some (str ++ (l.map fun t => t ++ pre ++ [',', '\n']).flatten, last :: s) := by
  intro l
  induction l with
  | nil => intro str s; simp [middleArgs]
  | cons t l ih =>
    intro str s
    simp only [List.length_cons, middleArgs, List.cons_append, topPop, Option.bind_some]
    rw [ih]
    simp

private theorem more_split (pre : Str) (mid : List Str) (last : Str) : ∀ ts, texts (pre ++ ['\t']) ts = mid ++ [last] →
    printedMore pre ts = pre ++ [',', '\n'] ++ (mid.map fun t => t ++ pre ++ [',', '\n']).flatten ++ last := by
  induction mid with
  | nil =>
    intro ts h
    cases ts with
    | nil => simp [texts] at h
    | cons t ts =>
      cases ts with
      | nil => simp [texts] at h; simp [printedMore, h]
      | cons t' ts => simp [texts] at h
  | cons m mid ih =>
    intro ts h
    cases ts with
    | nil => simp [texts] at h
    | cons t ts =>
      simp only [texts, List.cons_append, List.cons.injEq] at h
      rw [printedMore, ih ts h.2, h.1]
      simp

private theorem finish_ok (k : Kind) (ts : Trees) (pre : Str) (s : List Str) :
    finish ts.length (ident k) ⟨pre, texts (pre ++ ['\t']) ts ++ s⟩ = some ⟨pre, printed pre (.node k ts) :: s⟩ := by
  cases ts with
  | nil => simp [finish, Trees.length, texts, printed]
  | cons t ts =>
    cases ts with
    | nil => simp [finish, Trees.length, texts, printed, topPop, middleArgs, printedMore]
    | cons t' ts =>
      obtain ⟨mid, last, hl⟩ : ∃ mid last, texts (pre ++ ['\t']) (.cons t' ts) = mid ++ [last] := by
        have : texts (pre ++ ['\t']) (.cons t' ts) ≠ [] := by simp [texts]
        exact ⟨_, _, (List.dropLast_append_getLast this).symm⟩
      have hlen : (Trees.cons t' ts).length = mid.length + 1 := by
        rw [← texts_length (pre ++ ['\t']), hl]; simp
      have hm := middle_ok pre last mid (pre ++ ident k ++ "(\n".toList ++ printed (pre ++ ['\t']) t ++ (pre ++ ",\n".toList)) s
      have hr := more_split pre mid last _ hl
      rw [show (Trees.cons t (.cons t' ts)).length = mid.length + 2 by rw [Trees.length, hlen]]
      rw [texts, hl]
      simp only [finish, List.cons_append, List.append_assoc, topPop, Option.bind_some, List.nil_append] at hm ⊢
      rw [if_pos (show mid.length + 2 ≠ 0 by omega), if_pos (show mid.length + 2 > 1 by omega), show mid.length + 2 - 1 - 1 = mid.length by omega]
      rw [hm]
      simp only [Option.bind_some, if_pos (show mid.length + 2 > 1 by omega)]
      simp [printed, hr]

mutual
private theorem visit_ok : ∀ (t : Tree) (pre : Str) (s : List Str), visit t ⟨pre, s⟩ = some ⟨pre, printed pre t :: s⟩
  | .node k ts, pre, s => by
    rw [visit, visitArgs_ok ts (pre ++ ['\t']) s, Option.bind_some]
    simp only [List.dropLast_concat]
    exact finish_ok k ts pre s
private theorem visitArgs_ok : ∀ (ts : Trees) (pre : Str) (s : List Str), visitArgs ts ⟨pre, s⟩ = some ⟨pre, texts pre ts ++ s⟩
  | .nil, pre, s => rfl
  | .cons t ts, pre, s => by
    rw [visitArgs, visitArgs_ok ts pre s, Option.bind_some, visit_ok t]
    rfl
end

/-- Visiting a tree puts its printed form on the stack and changes nothing else, wherever it starts. -/
theorem C87_debug (t : Tree) (pre : Str) (stack : List Str) : visit t ⟨pre, stack⟩ = some ⟨pre, printed pre t :: stack⟩ := visit_ok t pre stack

example : printed [] (.node (.plain .assign) (.cons (.node (.var "x".toList 0 0) .nil) (.cons (.node (.const (1 / 2)) .nil) .nil))) =
    "ASSIGN(\n\tVAR[x,0,0.000000]\n,\n\tCONST[0.500000]\n)\n".toList := by decide +kernel

/-- What is printed of a product: variables, then events with their numbered statements. -/
def productText (vars : List Str) (evs : List (Str × List Tree)) : Str :=
  (vars.zipIdx.map fun (x, v) => "Var[".toList ++ Nat.toDigits 10 v ++ "] = ".toList ++ x ++ ['\n']).flatten ++
  (evs.zipIdx.map fun (e, i) => "EventTime_: ".toList ++ e.1 ++ "\tEvent_: ".toList ++ Nat.toDigits 10 (i + 1) ++ ['\n'] ++
    (e.2.zipIdx.map fun (t, s) => "Statement_: ".toList ++ Nat.toDigits 10 (s + 1) ++ ['\n'] ++ printed [] t ++ ['\n']).flatten).flatten

private theorem statements_ok : ∀ (ts : List Tree) (n : Nat) (out : Str) (s : List Str), ∃ s',
    statements ts n out ⟨[], s⟩ = some (out ++ ((ts.zipIdx n).map fun (t, s) => "Statement_: ".toList ++ Nat.toDigits 10 (s + 1) ++ ['\n'] ++ printed [] t ++ ['\n']).flatten, ⟨[], s'⟩) := by
  intro ts
  induction ts with
  | nil => intro n out s; exact ⟨s, by simp [statements]⟩
  | cons t ts ih =>
    intro n out s
    obtain ⟨s', h⟩ := ih (n + 1) (out ++ "Statement_: ".toList ++ Nat.toDigits 10 (n + 1) ++ ['\n'] ++ printed [] t ++ ['\n']) (printed [] t :: s)
    refine ⟨s', ?_⟩
    rw [statements, visit_ok, Option.bind_some]
    simp only [topPop, Option.bind_some]
    rw [h]
    simp

/-- A product is printed as a list of its variables and of the statements of its events, in order. -/
theorem C87_product (vars : List Str) (evs : List (Str × List Tree)) : debugProduct vars evs = some (productText vars evs) := by
  have hv : ∀ (vars : List Str) (n : Nat) (out : Str), varLines vars n out =
      out ++ ((vars.zipIdx n).map fun (x, v) => "Var[".toList ++ Nat.toDigits 10 v ++ "] = ".toList ++ x ++ ['\n']).flatten := by
    intro vars
    induction vars with
    | nil => intro n out; simp [varLines]
    | cons x xs ih => intro n out; rw [varLines, ih]; simp
  have he : ∀ (evs : List (Str × List Tree)) (n : Nat) (out : Str) (s : List Str), events evs n out ⟨[], s⟩ =
      some (out ++ ((evs.zipIdx n).map fun (e, i) => "EventTime_: ".toList ++ e.1 ++ "\tEvent_: ".toList ++ Nat.toDigits 10 (i + 1) ++ ['\n'] ++
        (e.2.zipIdx.map fun (t, s) => "Statement_: ".toList ++ Nat.toDigits 10 (s + 1) ++ ['\n'] ++ printed [] t ++ ['\n']).flatten).flatten) := by
    intro evs
    induction evs with
    | nil => intro n out s; simp [events]
    | cons e es ih =>
      intro n out s
      obtain ⟨date, ts⟩ := e
      obtain ⟨s', h⟩ := statements_ok ts 0 (out ++ "EventTime_: ".toList ++ date ++ "\tEvent_: ".toList ++ Nat.toDigits 10 (n + 1) ++ ['\n']) s
      rw [events, h, Option.bind_some]
      dsimp only
      rw [ih]
      simp
  unfold debugProduct productText
  rw [hv, he]
  simp

/-! ### The text determines the tree -/

attribute [local irreducible] numText intText

mutual
/-- Trees with any labels. -/
inductive Labelled (α : Type)
  | node (a : α) (args : LabelledArgs α)
inductive LabelledArgs (α : Type)
  | nil
  | cons (t : Labelled α) (ts : LabelledArgs α)
end

/-- What of a node can be seen: doubles only up to their six decimals. -/
inductive Shown
  | plain (p : Plain)
  | continuous (c : Cmp) (eps : Str)
  | discrete (c : Cmp) (lb rb : Str)
  | ite (firstElse : Int)
  | const (v : Str)
  | var (name : Str) (index : Int) (v : Str)
  | constVar (name : Str) (index : Int) (v : Str)
  deriving DecidableEq

def shown : Kind → Shown
  | .plain p => .plain p
  | .cmp c false eps _ _ => .continuous c (numText eps)
  | .cmp c true _ lb rb => .discrete c (numText lb) (numText rb)
  | .ite n => .ite n
  | .const v => .const (numText v)
  | .var s i v => .var s i (numText v)
  | .constVar s i v => .constVar s i (numText v)

mutual
def shownTree : Tree → Labelled Shown
  | .node k ts => .node (shown k) (shownTrees ts)
def shownTrees : Trees → LabelledArgs Shown
  | .nil => .nil
  | .cons t ts => .cons (shownTree t) (shownTrees ts)
end

mutual
/-- Every variable has a name without commas and line ends, as the parser gives them. -/
def NamesFine : Tree → Prop
  | .node (.var s _ _) ts => (',' ∉ s ∧ '\n' ∉ s) ∧ NamesFineArgs ts
  | .node (.constVar s _ _) ts => (',' ∉ s ∧ '\n' ∉ s) ∧ NamesFineArgs ts
  | .node _ ts => NamesFineArgs ts
def NamesFineArgs : Trees → Prop
  | .nil => True
  | .cons t ts => NamesFine t ∧ NamesFineArgs ts
end

private def KindFine : Kind → Prop
  | .var s _ _ => ',' ∉ s ∧ '\n' ∉ s
  | .constVar s _ _ => ',' ∉ s ∧ '\n' ∉ s
  | _ => True

private theorem namesFine_node {k : Kind} {ts : Trees} (h : NamesFine (.node k ts)) : KindFine k ∧ NamesFineArgs ts := by
  cases k <;> first | exact ⟨trivial, h⟩ | exact h

private theorem digits_char {n : Nat} {c : Char} (h : c ∈ Nat.toDigits 10 n) : c.isDigit = true := Nat.isDigit_of_mem_toDigits (by omega) (by omega) h

private theorem intText_char {n : Int} {c : Char} (h : c ∈ intText n) : c.isDigit = true ∨ c = '-' := by
  unfold intText at h
  split at h
  · rcases List.mem_cons.1 h with h | h
    · exact Or.inr h
    · exact Or.inl (digits_char h)
  · exact Or.inl (digits_char h)

private theorem numText_char {q : Rat} {c : Char} (h : c ∈ numText q) : c.isDigit = true ∨ c = '-' ∨ c = '.' := by
  unfold numText at h
  dsimp only at h
  rcases List.mem_append.1 h with h | h
  · rcases List.mem_append.1 h with h | h
    · split at h
      · exact Or.inr (Or.inl (List.mem_singleton.1 h))
      · simp at h
    · exact Or.inl (digits_char h)
  · rcases List.mem_cons.1 h with h | h
    · exact Or.inr (Or.inr h)
    · rcases List.mem_append.1 h with h | h
      · rw [(List.mem_replicate.1 h).2]; exact Or.inl rfl
      · exact Or.inl (digits_char h)

private theorem intText_not {n : Int} {c : Char} (h : c.isDigit = false) (h1 : c ≠ '-') : c ∉ intText n := fun hc => by
  rcases intText_char hc with h2 | h2
  · rw [h] at h2; cases h2
  · exact h1 h2

private theorem numText_not {q : Rat} {c : Char} (h : c.isDigit = false) (h1 : c ≠ '-') (h2 : c ≠ '.') : c ∉ numText q := fun hc => by
  rcases numText_char hc with h3 | h3 | h3
  · rw [h] at h3; cases h3
  · exact h1 h3
  · exact h2 h3

private theorem intText_inj {m n : Int} (h : intText m = intText n) : m = n := by
  have key : ∀ a b : Nat, Nat.toDigits 10 a = Nat.toDigits 10 b → a = b := fun a b hab => by
    have := congrArg (fun l => Nat.ofDigitChars 10 l 0) hab
    simpa [Nat.ofDigitChars_toDigits] using this
  have no : ∀ (a : Nat) (l : Str), Nat.toDigits 10 a ≠ '-' :: l := fun a l hl => by
    have : '-' ∈ Nat.toDigits 10 a := by rw [hl]; simp
    have := digits_char this
    simp at this
  unfold intText at h
  split at h <;> split at h
  · simp only [List.cons.injEq, true_and] at h
    have := key _ _ h; omega
  · exact absurd h.symm (no _ _)
  · exact absurd h (no _ _)
  · have := key _ _ h; omega

/-- The part of an identifier before the bracket. -/
private inductive Tag
  | plain (p : Plain)
  | cmp (c : Cmp)
  | ite | const | var | constVar
  deriving DecidableEq

private def Tag.word : Tag → Str
  | .plain p => p.word
  | .cmp c => c.word
  | .ite => "IF".toList
  | .const => "CONST".toList
  | .var => "VAR".toList
  | .constVar => "CONST_VAR".toList

private def tag : Kind → Tag
  | .plain p => .plain p
  | .cmp c _ _ _ _ => .cmp c
  | .ite _ => .ite
  | .const _ => .const
  | .var _ _ _ => .var
  | .constVar _ _ _ => .constVar

private def allTags : List Tag := [.ite, .const, .var, .constVar, .cmp .equal, .cmp .sup, .cmp .supEqual] ++
  ([.collect, .uplus, .uminus, .add, .sub, .multi, .div, .pow, .log, .exp, .sqrt, .max, .min, .not, .and, .or, .assign, .pays, .spot, .true, .false] : List Plain).map .plain

private theorem mem_allTags (t : Tag) : t ∈ allTags := by
  cases t with
  | plain p => cases p <;> decide
  | cmp c => cases c <;> decide
  | _ => decide

private theorem word_inj {s t : Tag} (h : s.word = t.word) : s = t := by
  have : ∀ s ∈ allTags, ∀ t ∈ allTags, s.word = t.word → s = t := by decide +kernel
  exact this s (mem_allTags s) t (mem_allTags t) h

private theorem word_chars (t : Tag) : '[' ∉ t.word ∧ '\n' ∉ t.word ∧ '(' ∉ t.word ∧ t.word ≠ [] := by
  have : ∀ t ∈ allTags, '[' ∉ t.word ∧ '\n' ∉ t.word ∧ '(' ∉ t.word ∧ t.word ≠ [] := by decide +kernel
  exact this t (mem_allTags t)

private def cmpBody (d : Bool) (eps lb rb : Rat) : Str :=
  if d then ['[', 'D', 'I', 'S', 'C', 'R', 'E', 'T', 'E', ',', 'B', 'O', 'U', 'N', 'D', 'S', '='] ++ numText lb ++ ',' :: (numText rb ++ [']']) else ['[', 'C', 'O', 'N', 'T', ',', 'E', 'P', 'S', '='] ++ numText eps ++ [']']
private def iteBody (n : Int) : Str := ['[', 'F', 'I', 'R', 'S', 'T', 'E', 'L', 'S', 'E', '='] ++ intText n ++ [']']
private def constBody (v : Rat) : Str := '[' :: numText v ++ [']']
private def varBody (s : Str) (i : Int) (v : Rat) : Str := '[' :: (s ++ ',' :: (intText i ++ ',' :: (numText v ++ [']'])))
private def body : Kind → Str
  | .plain _ => []
  | .cmp _ d eps lb rb => cmpBody d eps lb rb
  | .ite n => iteBody n
  | .const v => constBody v
  | .var s i v => varBody s i v
  | .constVar s i v => varBody s i v

private theorem ident_eq (k : Kind) : ident k = (tag k).word ++ body k := by
  cases k with
  | cmp c d e l r =>
    rw [ident, tag, body]
    unfold cmpText cmpBody Tag.word
    cases d <;> simp
  | plain p => rw [ident, tag, body, List.append_nil]; rfl
  | ite n =>
    rw [ident, tag, body]
    unfold iteText iteBody Tag.word
    simp
  | const v =>
    rw [ident, tag, body]
    unfold constText constBody Tag.word
    simp
  | var s i v =>
    rw [ident, tag, body]
    unfold varText varBody Tag.word
    simp
  | constVar s i v =>
    rw [ident, tag, body]
    unfold varText varBody Tag.word
    simp

private theorem body_start (k : Kind) : body k = [] ∨ ∃ r, body k = '[' :: (r ++ [']']) := by
  cases k with
  | plain p => exact Or.inl rfl
  | cmp c d e l r =>
    right
    cases d
    · exact ⟨['C', 'O', 'N', 'T', ',', 'E', 'P', 'S', '='] ++ numText e, by simp [body, cmpBody, iteBody, constBody, varBody]⟩
    · exact ⟨['D', 'I', 'S', 'C', 'R', 'E', 'T', 'E', ',', 'B', 'O', 'U', 'N', 'D', 'S', '='] ++ numText l ++ ',' :: numText r, by simp [body, cmpBody, iteBody, constBody, varBody]⟩
  | ite n => exact Or.inr ⟨['F', 'I', 'R', 'S', 'T', 'E', 'L', 'S', 'E', '='] ++ intText n, by simp [body, cmpBody, iteBody, constBody, varBody]⟩
  | const v => exact Or.inr ⟨numText v, by simp [body, cmpBody, iteBody, constBody, varBody]⟩
  | var s i v => exact Or.inr ⟨s ++ ',' :: (intText i ++ ',' :: numText v), by simp [body, cmpBody, iteBody, constBody, varBody]⟩
  | constVar s i v => exact Or.inr ⟨s ++ ',' :: (intText i ++ ',' :: numText v), by simp [body, cmpBody, iteBody, constBody, varBody]⟩

/-- Texts up to the first occurrence of a character agree. -/
private theorem cut {x : Char} {a b c d : Str} (ha : x ∉ a) (hc : x ∉ c) (h : a ++ x :: b = c ++ x :: d) : a = c ∧ b = d := by
  induction a generalizing c with
  | nil =>
    cases c with
    | nil => simpa using h
    | cons y c => simp at h; obtain ⟨rfl, -⟩ := h; simp at hc
  | cons y a ih =>
    cases c with
    | nil => simp at h; obtain ⟨rfl, -⟩ := h; simp at ha
    | cons z c =>
      simp only [List.cons_append, List.cons.injEq] at h
      obtain ⟨rfl, h⟩ := h
      obtain ⟨rfl, rfl⟩ := ih (fun h => ha (by simp [h])) (fun h => hc (by simp [h])) h
      exact ⟨rfl, rfl⟩

private theorem words_cut {s t : Tag} {a b : Str} (ha : a = [] ∨ ∃ r, a = '[' :: r) (hb : b = [] ∨ ∃ r, b = '[' :: r) (h : s.word ++ a = t.word ++ b) :
    s.word = t.word ∧ a = b := by
  have h1 := (word_chars s).1
  have h2 := (word_chars t).1
  rcases ha with rfl | ⟨r, rfl⟩ <;> rcases hb with rfl | ⟨r', rfl⟩
  · simpa using h
  · rw [List.append_nil] at h; rw [h] at h1; simp at h1
  · rw [List.append_nil] at h; rw [← h] at h2; simp at h2
  · obtain ⟨h3, h4⟩ := cut h1 h2 h
    exact ⟨h3, by rw [h4]⟩

private theorem ident_shown {k l : Kind} (hk : KindFine k) (hl : KindFine l) (h : ident k = ident l) : shown k = shown l := by
  rw [ident_eq, ident_eq] at h
  have w : ∀ k, body k = [] ∨ ∃ r, body k = '[' :: r := fun k => by
    rcases body_start k with h | ⟨r, h⟩
    · exact Or.inl h
    · exact Or.inr ⟨_, h⟩
  obtain ⟨h1, h2⟩ := words_cut (w k) (w l) h
  have ht := word_inj h1
  have last : ∀ {a b : Str}, a ++ [']'] = b ++ [']'] → a = b := fun h => List.append_cancel_right h
  have comma : Char.isDigit ',' = false := by decide
  cases k with
  | plain p => cases l <;> simp_all [tag, shown]
  | cmp c d e lb rb =>
    cases l <;> simp only [tag, reduceCtorEq] at ht
    rename_i c' d' e' lb' rb'
    cases ht
    cases d <;> cases d' <;> simp only [body, cmpBody, iteBody, constBody, varBody, reduceIte, Bool.false_eq_true] at h2
    · simp only [List.append_assoc] at h2
      have := last (List.append_cancel_left h2)
      simp [shown, this]
    · simp at h2
    · simp at h2
    · simp only [List.append_assoc, List.cons_append, List.cons.injEq, true_and, List.nil_append] at h2
      obtain ⟨h3, h4⟩ := cut (numText_not comma (by decide) (by decide)) (numText_not comma (by decide) (by decide)) h2
      simp [shown, h3, last h4]
  | ite n =>
    cases l <;> simp only [tag, reduceCtorEq] at ht
    simp only [body, cmpBody, iteBody, constBody, varBody, List.append_assoc] at h2
    simp [shown, intText_inj (last (List.append_cancel_left h2))]
  | const v =>
    cases l <;> simp only [tag, reduceCtorEq] at ht
    simp only [body, cmpBody, iteBody, constBody, varBody, List.cons_append, List.cons.injEq, true_and] at h2
    simp [shown, last h2]
  | var s i v =>
    cases l <;> simp only [tag, reduceCtorEq] at ht
    simp only [body, cmpBody, iteBody, constBody, varBody, List.cons.injEq, true_and] at h2
    obtain ⟨h3, h4⟩ := cut hk.1 hl.1 h2
    obtain ⟨h5, h6⟩ := cut (intText_not comma (by decide)) (intText_not comma (by decide)) h4
    simp [shown, h3, intText_inj h5, last h6]
  | constVar s i v =>
    cases l <;> simp only [tag, reduceCtorEq] at ht
    simp only [body, cmpBody, iteBody, constBody, varBody, List.cons.injEq, true_and] at h2
    obtain ⟨h3, h4⟩ := cut hk.1 hl.1 h2
    obtain ⟨h5, h6⟩ := cut (intText_not comma (by decide)) (intText_not comma (by decide)) h4
    simp [shown, h3, intText_inj h5, last h6]

private theorem ident_line {k : Kind} (hk : KindFine k) : '\n' ∉ ident k ∧ ∀ r, ident k ≠ r ++ ['('] := by
  constructor
  · rw [ident_eq]
    have h1 := (word_chars (tag k)).2.1
    have nl : Char.isDigit '\n' = false := by decide
    have hn : ∀ q, '\n' ∉ numText q := fun q => numText_not nl (by decide) (by decide)
    have hi : ∀ n, '\n' ∉ intText n := fun n => intText_not nl (by decide)
    have : '\n' ∉ body k := by
      cases k with
      | cmp c d e l r => cases d <;> simp [body, cmpBody, iteBody, constBody, varBody, hn]
      | plain p => simp [body]
      | ite n => simp [body, cmpBody, iteBody, constBody, varBody, hi]
      | const v => simp [body, cmpBody, iteBody, constBody, varBody, hn]
      | var s i v => simp [body, cmpBody, iteBody, constBody, varBody, hn, hi, hk.2]
      | constVar s i v => simp [body, cmpBody, iteBody, constBody, varBody, hn, hi, hk.2]
    simp [h1, this]
  · intro r h
    rw [ident_eq] at h
    rcases body_start k with hb | ⟨q, hb⟩
    · rw [hb, List.append_nil] at h
      have := (word_chars (tag k)).2.2.1
      rw [h] at this
      simp at this
    · rw [hb, show (tag k).word ++ '[' :: (q ++ [']']) = ((tag k).word ++ '[' :: q) ++ [']'] by simp] at h
      have := congrArg List.getLast? h
      rw [List.getLast?_concat, List.getLast?_concat] at this
      simp at this

mutual
private theorem printed_inj : ∀ (t u : Tree) (pre r r' : Str), NamesFine t → NamesFine u → printed pre t ++ r = printed pre u ++ r' → shownTree t = shownTree u ∧ r = r'
  | .node k .nil, .node l .nil, pre, r, r', ht, hu, h => by
    have hk := (namesFine_node ht).1
    have hl := (namesFine_node hu).1
    simp only [printed, List.append_assoc] at h
    obtain ⟨h1, h2⟩ := cut (ident_line hk).1 (ident_line hl).1 (List.append_cancel_left h)
    exact ⟨by simp [shownTree, shownTrees, ident_shown hk hl h1], h2⟩
  | .node k .nil, .node l (.cons u us), pre, r, r', ht, hu, h => by
    have hk := (namesFine_node ht).1
    have hl := (namesFine_node hu).1
    simp only [printed, List.append_assoc] at h
    have h := List.append_cancel_left h
    rw [show ∀ x, ident l ++ (['(', '\n'] ++ x) = (ident l ++ ['(']) ++ '\n' :: x by intro x; simp] at h
    have hn : '\n' ∉ ident l ++ ['('] := by simp [(ident_line hl).1]
    obtain ⟨h1, -⟩ := cut (ident_line hk).1 hn h
    exact absurd h1 ((ident_line hk).2 _)
  | .node k (.cons t ts), .node l .nil, pre, r, r', ht, hu, h => by
    have hk := (namesFine_node ht).1
    have hl := (namesFine_node hu).1
    simp only [printed, List.append_assoc] at h
    have h := List.append_cancel_left h
    rw [show ∀ x, ident k ++ (['(', '\n'] ++ x) = (ident k ++ ['(']) ++ '\n' :: x by intro x; simp] at h
    have hn : '\n' ∉ ident k ++ ['('] := by simp [(ident_line hk).1]
    obtain ⟨h1, -⟩ := cut hn (ident_line hl).1 h
    exact absurd h1.symm ((ident_line hl).2 _)
  | .node k (.cons t ts), .node l (.cons u us), pre, r, r', ht, hu, h => by
    obtain ⟨hk, hts⟩ := namesFine_node ht
    obtain ⟨hl, hus⟩ := namesFine_node hu
    simp only [printed, List.append_assoc] at h
    have h := List.append_cancel_left h
    have e : ∀ (k : Kind) x, ident k ++ (['(', '\n'] ++ x) = (ident k ++ ['(']) ++ '\n' :: x := by intro k x; simp
    rw [e, e] at h
    have hn : '\n' ∉ ident k ++ ['('] := by simp [(ident_line hk).1]
    have hn' : '\n' ∉ ident l ++ ['('] := by simp [(ident_line hl).1]
    obtain ⟨h1, h2⟩ := cut hn hn' h
    obtain ⟨h3, h4⟩ := printed_inj t u _ _ _ hts.1 hus.1 h2
    obtain ⟨h5, h6⟩ := more_inj ts us pre r r' hts.2 hus.2 (by simpa using h4)
    exact ⟨by simp [shownTree, shownTrees, ident_shown hk hl (List.append_cancel_right h1), h3, h5], h6⟩
private theorem more_inj : ∀ (ts us : Trees) (pre r r' : Str), NamesFineArgs ts → NamesFineArgs us →
    printedMore pre ts ++ (pre ++ ')' :: '\n' :: r) = printedMore pre us ++ (pre ++ ')' :: '\n' :: r') → shownTrees ts = shownTrees us ∧ r = r'
  | .nil, .nil, pre, r, r', _, _, h => by
    simp only [printedMore, List.nil_append] at h
    have := List.append_cancel_left h
    simp at this
    exact ⟨rfl, this⟩
  | .nil, .cons u us, pre, r, r', _, _, h => by
    simp only [printedMore, List.nil_append, List.append_assoc] at h
    have := List.append_cancel_left h
    simp at this
  | .cons t ts, .nil, pre, r, r', _, _, h => by
    simp only [printedMore, List.nil_append, List.append_assoc] at h
    have := List.append_cancel_left h
    simp at this
  | .cons t ts, .cons u us, pre, r, r', ht, hu, h => by
    simp only [printedMore, List.append_assoc] at h
    have h := List.append_cancel_left (List.append_cancel_left h)
    obtain ⟨h3, h4⟩ := printed_inj t u _ _ _ ht.1 hu.1 h
    obtain ⟨h5, h6⟩ := more_inj ts us pre r r' ht.2 hu.2 h4
    exact ⟨by simp [shownTrees, h3, h5], h6⟩
end

/-- Something is printed of a product exactly when it has variables or events to come (what `examples/script` asks for). -/
theorem C87_printed (vars : List Str) (evs : List (Str × List Tree)) : ∃ out, debugProduct vars evs = some out ∧ (out = [] ↔ vars = [] ∧ evs = []) := by
  refine ⟨_, C87_product vars evs, ⟨fun h => ?_, ?_⟩⟩
  · cases vars with
    | cons v vars => simp [productText] at h
    | nil =>
      cases evs with
      | cons e evs => simp [productText] at h
      | nil => exact ⟨rfl, rfl⟩
  · rintro ⟨rfl, rfl⟩
    rfl

/-- The printed form determines the tree: its form, its kinds of nodes, names and indices, and numbers up to six decimals. -/
theorem C87_determined_partial (t u : Tree) (ht : NamesFine t) (hu : NamesFine u) (h : printed [] t = printed [] u) : shownTree t = shownTree u :=
  (printed_inj t u [] [] [] ht hu (by rw [h])).1

example : NamesFine (.node (.plain .assign) (.cons (.node (.var "x".toList 0 0) .nil) (.cons (.node (.const (1 / 2)) .nil) .nil))) := by
  simp [NamesFine, NamesFineArgs]

/-- Small numbers have the text of zero. -/
theorem numText_small (q : Rat) (h0 : 0 ≤ q) (h1 : q < 1 / 2000000) : numText q = numText 0 := by
  have hf : ∀ q : Rat, 0 ≤ q → q < 1 / 2000000 → roundEven (|q| * 1000000) = 0 := by
    intro q h0 h1
    rw [abs_of_nonneg h0]
    have hfl : ⌊q * 1000000⌋ = 0 := by
      rw [Int.floor_eq_iff]
      constructor
      · push_cast; positivity
      · push_cast; linarith
    unfold roundEven
    dsimp only
    rw [hfl, if_pos]
    · rfl
    · left; push_cast; simp; linarith
  unfold numText
  rw [hf q h0 h1, hf 0 le_rfl (by norm_num), if_neg (not_lt.2 h0), if_neg (lt_irrefl _)]

/-- The claim for the numbers themselves fails: small numbers are all printed as nothing. -/
theorem C87_digits_violated (q : Rat) (h0 : 0 ≤ q) (h1 : q < 1 / 2000000) : printed [] (.node (.const q) .nil) = printed [] (.node (.const 0) .nil) := by
  have := numText_small q h0 h1
  simp [printed, ident, constText, this]

end Dal
