import Verif.Script.ParserModel

/-! # The grammar of scripts, independently of the parser

Four levels of expressions: sums, products, powers (all associating to the left), signs; then conditions (`OR` below `AND`),
statements and events. -/

namespace Dal.Script

variable {D : Type}

mutual
/-- Sums. -/
inductive G1 (v : PEnv D) : List Tok → PExpr D → Prop
  | add {a b x y} : G1 v a x → G2 v b y → G1 v (a ++ .plus :: b) (.bin .add x y none)
  | sub {a b x y} : G1 v a x → G2 v b y → G1 v (a ++ .minus :: b) (.bin .sub x y none)
  | up {a x} : G2 v a x → G1 v a x
/-- Products. -/
inductive G2 (v : PEnv D) : List Tok → PExpr D → Prop
  | mul {a b x y} : G2 v a x → G3 v b y → G2 v (a ++ .times :: b) (.bin .mul x y none)
  | div {a b x y} : G2 v a x → G3 v b y → G2 v (a ++ .divide :: b) (.bin .div x y none)
  | up {a x} : G3 v a x → G2 v a x
/-- Powers. -/
inductive G3 (v : PEnv D) : List Tok → PExpr D → Prop
  | pow {a b x y} : G3 v a x → G4 v b y → G3 v (a ++ .caret :: b) (.bin .pow x y none)
  | up {a x} : G4 v a x → G3 v a x
/-- Signed primaries. -/
inductive G4 (v : PEnv D) : List Tok → PExpr D → Prop
  | plus {a x} : G4 v a x → G4 v (.plus :: a) (.un .uplus x none)
  | minus {a x} : G4 v a x → G4 v (.minus :: a) (.un .uminus x none)
  | paren {a x} : G1 v a x → G4 v (.lp :: (a ++ [.rp])) x
  | num {s c} : v.toD (.num s) = some c → G4 v [.num s] (.const c)
  | var {s} : v.cvs s = none → G4 v [.name s] (.var s none)
  | cvar {s c} : v.cvs s = some c → G4 v [.name s] (.constVar s c)
  | spot : G4 v [.kw .spot, .lp, .rp] .spot
  | dcf {a x} : (∀ t ∈ a, t ≠ .lp ∧ t ≠ .rp) → (∀ rest, v.dcf (a ++ .rp :: rest) (rest.length + 1) = some (some x)) →
      G4 v (.kw .dcf :: .lp :: (a ++ [.rp])) (.const x)
  | log {a x} : G1 v a x → G4 v (.kw .log_ :: .lp :: (a ++ [.rp])) (.un .log x none)
  | sqrt {a x} : G1 v a x → G4 v (.kw .sqrt_ :: .lp :: (a ++ [.rp])) (.un .sqrt x none)
  | exp {a x} : G1 v a x → G4 v (.kw .exp_ :: .lp :: (a ++ [.rp])) (.un .exp x none)
  | max {a x y l} : GArgs v a (x :: y :: l) → l.length ≤ 998 →
      G4 v (.kw .max_ :: .lp :: (a ++ [.rp])) (l.foldl (fun m z => .extra m z none) (.bin .max x y none))
  | min {a x y l} : GArgs v a (x :: y :: l) → l.length ≤ 998 →
      G4 v (.kw .min_ :: .lp :: (a ++ [.rp])) (l.foldl (fun m z => .extra m z none) (.bin .min x y none))
/-- Arguments separated by commas. -/
inductive GArgs (v : PEnv D) : List Tok → List (PExpr D) → Prop
  | one {a x} : G1 v a x → GArgs v a [x]
  | more {a b x xs} : G1 v a x → GArgs v b xs → GArgs v (a ++ .comma :: b) (x :: xs)
end

/-- The meaning of a comparator: which expression is compared with zero, and how. -/
def cmpMeaning (v : PEnv D) (c : CmpTok) (x y : PExpr D) (eps : D) : PCond D :=
  let a : CmpAttr D := ⟨eps, false, v.zero, v.zero⟩
  match c with
  | .eq => .cmp .equal (.bin .sub x y none) a {}
  | .ne => .not (.cmp .equal (.bin .sub x y none) a {}) {}
  | .gt => .cmp .sup (.bin .sub x y none) a {}
  | .ge => .cmp .supEq (.bin .sub x y none) a {}
  | .lt => .cmp .sup (.bin .sub y x none) a {}
  | .le => .cmp .supEq (.bin .sub y x none) a {}

/-- An optional width after a comparison: none (the default), or `; w` or `: w`. -/
inductive GWidth (v : PEnv D) : List Tok → D → Prop
  | none : GWidth v [] v.eps0
  | semi {s w} : v.toD (.num s) = some w → GWidth v [.semi, .num s] w
  | colon {s w} : v.toD (.num s) = some w → GWidth v [.colon, .num s] w

mutual
/-- Disjunctions. -/
inductive GOr (v : PEnv D) : List Tok → PCond D → Prop
  | or {a b x y} : GOr v a x → GAnd v b y → GOr v (a ++ .kw .or_ :: b) (.or x y {})
  | up {a x} : GAnd v a x → GOr v a x
/-- Conjunctions. -/
inductive GAnd (v : PEnv D) : List Tok → PCond D → Prop
  | and {a b x y} : GAnd v a x → GElem v b y → GAnd v (a ++ .kw .and_ :: b) (.and x y {})
  | up {a x} : GElem v a x → GAnd v a x
/-- Comparisons and conditions in parentheses.  A comparison must not start with a parenthesis. -/
inductive GElem (v : PEnv D) : List Tok → PCond D → Prop
  | paren {a x} : GOr v a x → GElem v (.lp :: (a ++ [.rp])) x
  | cmp {a b w x y c eps} : G1 v a x → G1 v b y → GWidth v w eps → a.head? ≠ some .lp →
      GElem v (a ++ .cmp c :: (b ++ w)) (cmpMeaning v c x y eps)
end

mutual
/-- Statements. -/
inductive GStmt (v : PEnv D) : List Tok → PStmt D → Prop
  | assign {s a x} : G1 v a x → GStmt v (.name s :: .cmp .eq :: a) (.assign ⟨s, (v.cvs s).isSome⟩ x)
  | pays {s a x} : G1 v a x → GStmt v (.name s :: .kw .pays :: a) (.pays ⟨s, (v.cvs s).isSome⟩ x)
  | ifThen {c x t ss} : GOr v c x → GStmts v t ss →
      GStmt v (.kw .if_ :: (c ++ .kw .then_ :: (t ++ [.kw .end_]))) (.ite x ss false .nil [] {})
  | ifElse {c x t ss f ff} : GOr v c x → GStmts v t ss → GStmts v f ff →
      GStmt v (.kw .if_ :: (c ++ .kw .then_ :: (t ++ .kw .else_ :: (f ++ [.kw .end_])))) (.ite x ss true ff [] {})
/-- Statements one after the other. -/
inductive GStmts (v : PEnv D) : List Tok → PStmts D → Prop
  | nil : GStmts v [] .nil
  | cons {a b s ss} : GStmt v a s → GStmts v b ss → GStmts v (a ++ b) (.cons s ss)
end

end Dal.Script
