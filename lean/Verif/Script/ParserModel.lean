import Verif.Script.Ast

/-! # The script parser (script/parser.hpp, script/parser.cpp)

The token vector is a list; an iterator is the list of the tokens from it on; `end` is the number of tokens from it on,
so that `cur == end` is `cur.length = e`.  Dereferencing the end of the vector is `Res.ub`, an exception is `Res.throw`.
Every function has a bound on the depth of calls; `Res.fuel` means the bound was too small.
`DCF` is a parameter here: its three fields (parser.cpp:255-292) are in `DcfModel`, which is handed the tokens from the opening
parenthesis on.  `String::ToDouble` is a parameter too. -/

namespace Dal.Script

/-- The reserved words, parser.cpp:14-17. -/
inductive Kw
  | if_ | end_ | then_ | else_ | dcf | pays | and_ | or_ | spot | max_ | min_ | log_ | sqrt_ | exp_
  deriving DecidableEq, Repr

/-- The comparators, parser.cpp:227-238. -/
inductive CmpTok
  | eq | ne | lt | gt | le | ge
  deriving DecidableEq, Repr

/-- The tokens `Tokenize` can produce, sorted as the parser distinguishes them: operators, parentheses, comma, `;`, `:`,
comparators, words starting with a digit or a dot, reserved words, other words. -/
inductive Tok
  | plus | minus | times | divide | caret | lp | rp | comma | semi | colon
  | cmp (c : CmpTok)
  | num (s : List Char)
  | kw (k : Kw)
  | name (s : List Char)
  deriving DecidableEq, Repr

/-! ### `Tokenize`, parser.cpp:358-364 -/

/-- `[\w.]`. -/
def isWordChar (c : Char) : Bool :=
  ('a'.toNat ≤ c.toNat && c.toNat ≤ 'z'.toNat) || ('A'.toNat ≤ c.toNat && c.toNat ≤ 'Z'.toNat) ||
  ('0'.toNat ≤ c.toNat && c.toNat ≤ '9'.toNat) || c == '_' || c == '.'

/-- The other characters that are tokens by themselves. -/
def isSingle (c : Char) : Bool := c ∈ ['/', '-', ',', ';', ':', '(', ')', '+', '*', '^', '<', '>', '=']

/-- A word read so far, if any. -/
def flush (buf : List Char) : List (List Char) := if buf = [] then [] else [buf]

/-- The matches of the expression from left to right: `buf` is the word in progress, `skip` tells that the next character is
already part of a match of two characters; characters that match nothing are skipped. -/
def lex : List Char → Bool → List Char → List (List Char)
  | buf, _, [] => flush buf
  | _, true, _ :: cs => lex [] false cs
  | buf, false, c :: cs =>
    if isWordChar c then lex (buf ++ [c]) false cs
    else if (c = '!' ∨ c = '>' ∨ c = '<') ∧ cs.head? = some '=' then flush buf ++ [c, '='] :: lex [] true cs
    else if isSingle c then flush buf ++ [c] :: lex [] false cs
    else flush buf ++ lex [] false cs

/-- The text of a reserved word. -/
def Kw.text : Kw → List Char
  | .if_ => ['I', 'F']
  | .end_ => ['E', 'N', 'D']
  | .then_ => ['T', 'H', 'E', 'N']
  | .else_ => ['E', 'L', 'S', 'E']
  | .dcf => ['D', 'C', 'F']
  | .pays => ['P', 'A', 'Y', 'S']
  | .and_ => ['A', 'N', 'D']
  | .or_ => ['O', 'R']
  | .spot => ['S', 'P', 'O', 'T']
  | .max_ => ['M', 'A', 'X']
  | .min_ => ['M', 'I', 'N']
  | .log_ => ['L', 'O', 'G']
  | .sqrt_ => ['S', 'Q', 'R', 'T']
  | .exp_ => ['E', 'X', 'P']

/-- All reserved words. -/
def Kw.all : List Kw := [.if_, .end_, .then_, .else_, .dcf, .pays, .and_, .or_, .spot, .max_, .min_, .log_, .sqrt_, .exp_]

/-- Upper case; `String_` compares without regard to case. -/
def upper (s : List Char) : List Char := s.map Char.toUpper

/-- How the parser sees the text of a token. -/
def classify (s : List Char) : Option Tok :=
  if s = ['+'] then some .plus else if s = ['-'] then some .minus else if s = ['*'] then some .times
  else if s = ['/'] then some .divide else if s = ['^'] then some .caret else if s = ['('] then some .lp
  else if s = [')'] then some .rp else if s = [','] then some .comma else if s = [';'] then some .semi
  else if s = [':'] then some .colon else if s = ['='] then some (.cmp .eq) else if s = ['!', '='] then some (.cmp .ne)
  else if s = ['<'] then some (.cmp .lt) else if s = ['>'] then some (.cmp .gt)
  else if s = ['<', '='] then some (.cmp .le) else if s = ['>', '='] then some (.cmp .ge)
  else
    match s with
    | [] => none
    | c :: _ =>
      if c == '.' || ('0'.toNat ≤ c.toNat && c.toNat ≤ '9'.toNat) then some (.num s)
      else
        match Kw.all.find? fun k => decide (k.text = upper s) with
        | some k => some (.kw k)
        | none => some (.name s)

/-- `Tokenize` followed by the classification. -/
def tokens (text : List Char) : List Tok := (lex [] false text).filterMap classify

/-- The text of a token. -/
def Tok.text : Tok → List Char
  | .plus => ['+']
  | .minus => ['-']
  | .times => ['*']
  | .divide => ['/']
  | .caret => ['^']
  | .lp => ['(']
  | .rp => [')']
  | .comma => [',']
  | .semi => [';']
  | .colon => [':']
  | .cmp .eq => ['=']
  | .cmp .ne => ['!', '=']
  | .cmp .lt => ['<']
  | .cmp .gt => ['>']
  | .cmp .le => ['<', '=']
  | .cmp .ge => ['>', '=']
  | .num s => s
  | .kw k => k.text
  | .name s => s

/-! ### The parser -/

/-- The outcome of a parsing function. -/
inductive Res (α : Type)
  | ok (a : α)
  | throw
  | ub
  | fuel
  deriving DecidableEq

/-- Going on after success. -/
def Res.bind {α β : Type} (r : Res α) (f : α → Res β) : Res β :=
  match r with
  | .ok a => f a
  | .throw => .throw
  | .ub => .ub
  | .fuel => .fuel

/-- What the parser takes from outside. -/
structure PEnv (D : Type) where
  /-- `String::ToDouble` on the text of a token; `none` is an exception. -/
  toD : Tok → Option D
  /-- `constVariables_`. -/
  cvs : List Char → Option D
  /-- `ParseDCF` on the tokens after the opening parenthesis, up to the end of the vector, and the number of tokens from the closing
  parenthesis on; `none` is undefined behaviour, `some none` an exception. -/
  dcf : List Tok → Nat → Option (Option D)
  /-- The default of `eps_`, -1. -/
  eps0 : D
  /-- The bounds before any analysis. -/
  zero : D

variable {D : Type}

/-- Variables by name. -/
abbrev PExpr (D : Type) := Expr (List Char) D
abbrev PCond (D : Type) := Cond (List Char) D
abbrev PStmt (D : Type) := Stmt (List Char) D
abbrev PStmts (D : Type) := Stmts (List Char) D

/-- `FindMatch<'(', ')'>`, parser.hpp:23-35, after the opening parenthesis, with `k` open ones: the tokens from the
matching closing one on. -/
def findClose : Nat → List Tok → Nat → Res (List Tok)
  | k, l, e =>
    match l with
    | [] => if e = 0 then .throw else .ub
    | t :: r =>
      if (t :: r).length = e then .throw
      else if t = .lp then findClose (k + 1) r e
      else if t = .rp then (if k = 1 then .ok (t :: r) else findClose (k - 1) r e)
      else findClose k r e

/-- `ParseVar`, parser.cpp:131-143.  The first character must be between `A` and `z`, which includes `^`. -/
def pVar (v : PEnv D) : List Tok → Res (PExpr D × List Tok)
  | [] => .ub
  | .name s :: r =>
    match v.cvs s with
    | none => .ok (.var s none, r)
    | some c => .ok (.constVar s c, r)
  | .caret :: r =>
    match v.cvs ['^'] with
    | none => .ok (.var ['^'] none, r)
    | some c => .ok (.constVar ['^'] c, r)
  | _ :: _ => .throw

/-- The functions of one argument. -/
def Kw.unary : Kw → Option UnOp
  | .log_ => some .log
  | .sqrt_ => some .sqrt
  | .exp_ => some .exp
  | _ => none

/-- `MAX` and `MIN`. -/
def Kw.nary : Kw → Option BinOp
  | .max_ => some .max
  | .min_ => some .min
  | _ => none

/-- A `MAX`/`MIN` node with its arguments. -/
def mkNary (op : BinOp) : List (PExpr D) → Option (PExpr D)
  | a :: b :: l => some (l.foldl (fun m x => .extra m x none) (.bin op a b none))
  | _ => none

/-- The node of a function and its arguments, parser.cpp:77-117; `none` is a wrong number of arguments. -/
def mkFunc (k : Kw) (args : List (PExpr D)) : Option (PExpr D) :=
  match k, args with
  | .spot, [] => some .spot
  | k, [a] => (Kw.unary k).map fun op => .un op a none
  | k, args =>
    match Kw.nary k with
    | some op => if args.length ≤ 1000 then mkNary op args else none
    | none => none

/-- Whether a word is the name of a function other than `DCF`. -/
def Kw.isFunc (k : Kw) : Bool := k = .spot || k.unary.isSome || k.nary.isSome

mutual
/-- `ParseExpr`, parser.cpp:21-31. -/
def pExpr (v : PEnv D) : Nat → List Tok → Nat → Res (PExpr D × List Tok)
  | 0, _, _ => .fuel
  | n + 1, cur, e => (pL2 v n cur e).bind fun r => loop1 v n r.1 r.2 e
/-- Its loop. -/
def loop1 (v : PEnv D) : Nat → PExpr D → List Tok → Nat → Res (PExpr D × List Tok)
  | 0, _, _, _ => .fuel
  | n + 1, lhs, cur, e =>
    if cur.length = e then .ok (lhs, cur)
    else
      match cur with
      | [] => .ub
      | .plus :: r =>
        if r.length = e then .throw else (pL2 v n r e).bind fun q => loop1 v n (.bin .add lhs q.1 none) q.2 e
      | .minus :: r =>
        if r.length = e then .throw else (pL2 v n r e).bind fun q => loop1 v n (.bin .sub lhs q.1 none) q.2 e
      | _ => .ok (lhs, cur)
/-- `ParseExprL2`, parser.cpp:33-43. -/
def pL2 (v : PEnv D) : Nat → List Tok → Nat → Res (PExpr D × List Tok)
  | 0, _, _ => .fuel
  | n + 1, cur, e => (pL3 v n cur e).bind fun r => loop2 v n r.1 r.2 e
/-- Its loop. -/
def loop2 (v : PEnv D) : Nat → PExpr D → List Tok → Nat → Res (PExpr D × List Tok)
  | 0, _, _, _ => .fuel
  | n + 1, lhs, cur, e =>
    if cur.length = e then .ok (lhs, cur)
    else
      match cur with
      | [] => .ub
      | .times :: r =>
        if r.length = e then .throw else (pL3 v n r e).bind fun q => loop2 v n (.bin .mul lhs q.1 none) q.2 e
      | .divide :: r =>
        if r.length = e then .throw else (pL3 v n r e).bind fun q => loop2 v n (.bin .div lhs q.1 none) q.2 e
      | _ => .ok (lhs, cur)
/-- `ParseExprL3`, parser.cpp:45-54. -/
def pL3 (v : PEnv D) : Nat → List Tok → Nat → Res (PExpr D × List Tok)
  | 0, _, _ => .fuel
  | n + 1, cur, e => (pL4 v n cur e).bind fun r => loop3 v n r.1 r.2 e
/-- Its loop. -/
def loop3 (v : PEnv D) : Nat → PExpr D → List Tok → Nat → Res (PExpr D × List Tok)
  | 0, _, _, _ => .fuel
  | n + 1, lhs, cur, e =>
    if cur.length = e then .ok (lhs, cur)
    else
      match cur with
      | [] => .ub
      | .caret :: r =>
        if r.length = e then .throw else (pL4 v n r e).bind fun q => loop3 v n (.bin .pow lhs q.1 none) q.2 e
      | _ => .ok (lhs, cur)
/-- `ParseExprL4`, parser.cpp:56-68, with `ParseParentheses`, parser.hpp:40-61.  What is left between the parsed
expression and the closing parenthesis is skipped. -/
def pL4 (v : PEnv D) : Nat → List Tok → Nat → Res (PExpr D × List Tok)
  | 0, _, _ => .fuel
  | n + 1, cur, e =>
    match cur with
    | [] => .ub
    | .plus :: r =>
      if cur.length = e then .throw
      else if r.length = e then .throw else (pL4 v n r e).bind fun q => .ok (.un .uplus q.1 none, q.2)
    | .minus :: r =>
      if cur.length = e then .throw
      else if r.length = e then .throw else (pL4 v n r e).bind fun q => .ok (.un .uminus q.1 none, q.2)
    | .lp :: r =>
      (findClose 1 r e).bind fun c => (pExpr v n r c.length).bind fun q => .ok (q.1, c.tail)
    | _ => pPrim v n cur e
/-- `ParseVarConstFunc`, parser.cpp:70-129. -/
def pPrim (v : PEnv D) : Nat → List Tok → Nat → Res (PExpr D × List Tok)
  | 0, _, _ => .fuel
  | n + 1, cur, e =>
    match cur with
    | .num s :: r =>
      match v.toD (.num s) with
      | some c => .ok (.const c, r)
      | none => .throw
    | .kw .dcf :: r =>
      match r with
      | [] => .ub
      | .lp :: r' =>
        (findClose 1 r' e).bind fun c =>
          match v.dcf r' c.length with
          | some (some x) => .ok (.const x, c.tail)
          | some none => .throw
          | none => .ub
      | _ => .throw
    | .kw k :: r => if k.isFunc then pFunc v n k r e else .throw
    | _ => pVar v cur
/-- `ParseFuncArg`, parser.cpp:294-310, and the check of the number of arguments, parser.cpp:112-117. -/
def pFunc (v : PEnv D) : Nat → Kw → List Tok → Nat → Res (PExpr D × List Tok)
  | 0, _, _, _ => .fuel
  | n + 1, k, cur, e =>
    match cur with
    | [] => .ub
    | .lp :: r =>
      (findClose 1 r e).bind fun c => (pArgs v n r c.length e).bind fun args =>
        match mkFunc k args with
        | some x => .ok (x, c.tail)
        | none => .throw
    | _ => .throw
/-- The loop of `ParseFuncArg`; `c` marks the closing parenthesis. -/
def pArgs (v : PEnv D) : Nat → List Tok → Nat → Nat → Res (List (PExpr D))
  | 0, _, _, _ => .fuel
  | n + 1, cur, c, e =>
    if cur.length = c then .ok []
    else
      (pExpr v n cur e).bind fun q =>
        match q.2 with
        | [] => .ub
        | .comma :: r => (pArgs v n r c e).bind fun xs => .ok (q.1 :: xs)
        | t :: r => if (t :: r).length = c then .ok [q.1] else .throw
end

/-- `ParseCondOptionals`, parser.cpp:244-253: the last width given. -/
def pOpt (v : PEnv D) : D → List Tok → Nat → Res (D × List Tok)
  | _, [], _ => .ub
  | eps, t :: r, e =>
    if t = .semi ∨ t = .colon then
      match r with
      | [] => if e = 0 then .throw else .ub
      | w :: r' =>
        if r.length = e then .throw
        else
          match v.toD w with
          | some x => pOpt v x r' e
          | none => .throw
    else .ok (eps, t :: r)

/-- `BuildEqual`, ..., `BuildSupEqual`, parser.cpp:227-240 and 312-345. -/
def mkCmp (v : PEnv D) (c : CmpTok) (l r : PExpr D) (eps : D) : PCond D :=
  match c with
  | .eq => .cmp .equal (.bin .sub l r none) ⟨eps, false, v.zero, v.zero⟩ ⟨false, false⟩
  | .ne => .not (.cmp .equal (.bin .sub l r none) ⟨eps, false, v.zero, v.zero⟩ ⟨false, false⟩) ⟨false, false⟩
  | .lt => .cmp .sup (.bin .sub r l none) ⟨eps, false, v.zero, v.zero⟩ ⟨false, false⟩
  | .gt => .cmp .sup (.bin .sub l r none) ⟨eps, false, v.zero, v.zero⟩ ⟨false, false⟩
  | .le => .cmp .supEq (.bin .sub r l none) ⟨eps, false, v.zero, v.zero⟩ ⟨false, false⟩
  | .ge => .cmp .supEq (.bin .sub l r none) ⟨eps, false, v.zero, v.zero⟩ ⟨false, false⟩

/-- `ParseCondElem`, parser.cpp:216-242. -/
def pElem (v : PEnv D) (n : Nat) (cur : List Tok) (e : Nat) : Res (PCond D × List Tok) :=
  (pExpr v n cur e).bind fun q =>
    if q.2.length = e then .throw
    else
      match q.2 with
      | [] => .ub
      | t :: r =>
        if r.length = e then .throw
        else
          (pExpr v n r e).bind fun q' => (pOpt v v.eps0 q'.2 e).bind fun w =>
            match t with
            | .cmp c => .ok (mkCmp v c q.1 q'.1 w.1, w.2)
            | _ => .throw

mutual
/-- `ParseCond`, parser.cpp:194-203. -/
def pCond (v : PEnv D) : Nat → List Tok → Nat → Res (PCond D × List Tok)
  | 0, _, _ => .fuel
  | n + 1, cur, e => (pCond2 v n cur e).bind fun r => loopOr v n r.1 r.2 e
/-- Its loop. -/
def loopOr (v : PEnv D) : Nat → PCond D → List Tok → Nat → Res (PCond D × List Tok)
  | 0, _, _, _ => .fuel
  | n + 1, lhs, cur, e =>
    if cur.length = e then .ok (lhs, cur)
    else
      match cur with
      | [] => .ub
      | .kw .or_ :: r =>
        if r.length = e then .throw else (pCond2 v n r e).bind fun q => loopOr v n (.or lhs q.1 ⟨false, false⟩) q.2 e
      | _ => .ok (lhs, cur)
/-- `ParseCondL2`, parser.cpp:205-214. -/
def pCond2 (v : PEnv D) : Nat → List Tok → Nat → Res (PCond D × List Tok)
  | 0, _, _ => .fuel
  | n + 1, cur, e => (pCondP v n cur e).bind fun r => loopAnd v n r.1 r.2 e
/-- Its loop. -/
def loopAnd (v : PEnv D) : Nat → PCond D → List Tok → Nat → Res (PCond D × List Tok)
  | 0, _, _, _ => .fuel
  | n + 1, lhs, cur, e =>
    if cur.length = e then .ok (lhs, cur)
    else
      match cur with
      | [] => .ub
      | .kw .and_ :: r =>
        if r.length = e then .throw else (pCondP v n r e).bind fun q => loopAnd v n (.and lhs q.1 ⟨false, false⟩) q.2 e
      | _ => .ok (lhs, cur)
/-- `ParseParentheses<ParseCond, ParseCondElem>`. -/
def pCondP (v : PEnv D) : Nat → List Tok → Nat → Res (PCond D × List Tok)
  | 0, _, _ => .fuel
  | n + 1, cur, e =>
    match cur with
    | [] => .ub
    | .lp :: r => (findClose 1 r e).bind fun c => (pCond v n r c.length).bind fun q => .ok (q.1, c.tail)
    | _ => pElem v n cur e
end

/-- Where a list of statements is read. -/
inductive Mode
  | top | thn | els
  deriving DecidableEq

/-- The tokens that end the list: lines 153, 161, 370. -/
def Mode.stops : Mode → Tok → Bool
  | .top, _ => false
  | .thn, t => t = .kw .else_ || t = .kw .end_
  | .els, t => t = .kw .end_

mutual
/-- `ParseStatement`, `ParseIf`, `ParseAssign`, `ParsePays`, parser.cpp:145-192 and 347-356. -/
def pStmt (v : PEnv D) : Nat → List Tok → Nat → Res (PStmt D × List Tok)
  | 0, _, _ => .fuel
  | n + 1, cur, e =>
    match cur with
    | .kw .if_ :: r =>
      if r.length = e then .throw
      else
        (pCond v n r e).bind fun q =>
          match q.2 with
          | .kw .then_ :: r2 =>
            if q.2.length = e then .throw
            else
              (pStmts v n .thn r2 e).bind fun t =>
                if t.2.length = e then .throw
                else
                  match t.2 with
                  | .kw .else_ :: r3 =>
                    (pStmts v n .els r3 e).bind fun f =>
                      if f.2.length = e then .throw
                      else .ok (.ite q.1 t.1 true f.1 [] ⟨false, false⟩, f.2.tail)
                  | _ => .ok (.ite q.1 t.1 false .nil [] ⟨false, false⟩, t.2.tail)
          | _ => .throw
    | _ =>
      (pVar v cur).bind fun x =>
        if x.2.length = e then .throw
        else
          let lhs : Lhs (List Char) := match x.1 with
            | .var s _ => ⟨s, false⟩
            | .constVar s _ => ⟨s, true⟩
            | _ => ⟨[], false⟩
          match x.2 with
          | .cmp .eq :: r => if r.length = e then .throw else (pExpr v n r e).bind fun q => .ok (.assign lhs q.1, q.2)
          | .kw .pays :: r => if r.length = e then .throw else (pExpr v n r e).bind fun q => .ok (.pays lhs q.1, q.2)
          | _ => .throw
/-- Statements up to the end or to a token that ends the list. -/
def pStmts (v : PEnv D) : Nat → Mode → List Tok → Nat → Res (PStmts D × List Tok)
  | 0, _, _, _ => .fuel
  | n + 1, m, cur, e =>
    if cur.length = e then .ok (.nil, cur)
    else
      match cur with
      | [] => .ub
      | t :: _ =>
        if m.stops t then .ok (.nil, cur)
        else (pStmt v n cur e).bind fun s => (pStmts v n m s.2 e).bind fun ss => .ok (.cons s.1 ss.1, ss.2)
end

/-- `Parse`, parser.cpp:366-373. -/
def pEvent (v : PEnv D) (n : Nat) (ts : List Tok) : Res (PStmts D) := (pStmts v n .top ts 0).bind fun r => .ok r.1

end Dal.Script
