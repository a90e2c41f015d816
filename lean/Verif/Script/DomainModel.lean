import Verif.Script.CompileModel
import Mathlib.Algebra.Order.Field.Basic
import Mathlib.Order.WithBot
import Mathlib.Order.Lattice

/-! # Model of the domain analysis (script/visitor/domain.hpp and domainproc.hpp)

Numbers are an ordered field; the tolerance `EPSILON` of the comparisons of bounds is read as zero (the class
otherwise identifies numbers closer than 2e-14).  `none` is an exception. -/

namespace Dal.Script

/-- `Bound_`, domain.hpp:24-141. -/
inductive Bd (K : Type)
  | minf
  | fin (x : K)
  | pinf
  deriving DecidableEq

section
variable {K : Type}

/-- Bounds as numbers with two infinities. -/
def Bd.ext : Bd K → WithBot (WithTop K)
  | .minf => ⊥
  | .fin x => ((x : WithTop K) : WithBot (WithTop K))
  | .pinf => ((⊤ : WithTop K) : WithBot (WithTop K))

theorem Bd.ext_inj : Function.Injective (Bd.ext : Bd K → WithBot (WithTop K)) := by
  intro a b h
  cases a <;> cases b
  · rfl
  · exact absurd h WithBot.bot_ne_coe
  · exact absurd h WithBot.bot_ne_coe
  · exact absurd h WithBot.coe_ne_bot
  · exact congrArg Bd.fin (WithTop.coe_injective (WithBot.coe_injective h))
  · exact absurd (WithBot.coe_injective h) WithTop.coe_ne_top
  · exact absurd h WithBot.coe_ne_bot
  · exact absurd (WithBot.coe_injective h) WithTop.top_ne_coe
  · rfl

/-- The comparisons of bounds, domain.hpp:81-97. -/
instance [LinearOrder K] : LinearOrder (Bd K) := LinearOrder.lift' Bd.ext Bd.ext_inj

end

variable {K : Type} [Field K] [LinearOrder K]

/-- `IsPositive(true)`, domain.hpp:73. -/
def Bd.pos : Bd K → Bool
  | .pinf => true
  | .fin x => decide (0 < x)
  | .minf => false

/-- `IsNegative(true)`, domain.hpp:74. -/
def Bd.neg : Bd K → Bool
  | .minf => true
  | .fin x => decide (x < 0)
  | .pinf => false

/-- `operator*`, domain.hpp:118-130 (0 times infinity is infinity). -/
def Bd.mul : Bd K → Bd K → Bd K
  | .fin x, .fin y => .fin (x * y)
  | a, b =>
    if (a.pos && b.pos) || (a.neg && b.neg) then .pinf
    else if a = .fin 0 then b
    else if b = .fin 0 then a
    else .minf

/-- Unary minus, domain.hpp:133-140. -/
def Bd.opp : Bd K → Bd K
  | .minf => .pinf
  | .pinf => .minf
  | .fin x => .fin (-x)

/-- `Interval_`, domain.hpp:143-146. -/
structure Itv (K : Type) where
  l : Bd K
  r : Bd K
  deriving DecidableEq

/-- The constructor, domain.hpp:152-154. -/
def mkItv (l r : Bd K) : Option (Itv K) := if l ≠ .pinf ∧ r ≠ .minf ∧ l ≤ r then some ⟨l, r⟩ else none

/-- `Interval_(double)`, domain.hpp:149. -/
def single (x : K) : Itv K := ⟨.fin x, .fin x⟩

/-- `IsSingleton`, domain.hpp:169-176. -/
def Itv.isSingleton (i : Itv K) : Option K :=
  match i.l, i.r with
  | .fin x, .fin y => if x = y then some x else none
  | _, _ => none

/-- `IsZero`, domain.hpp:178. -/
def Itv.isZero (i : Itv K) : Bool := decide (i.isSingleton = some 0)

/-- `IsInfinite`, domain.hpp:167. -/
def Itv.isInf (i : Itv K) : Bool :=
  match i.l, i.r with
  | .fin _, .fin _ => false
  | _, _ => true

/-- `operator+`, domain.hpp:215-229. -/
def Itv.add (i j : Itv K) : Option (Itv K) :=
  mkItv (match i.l, j.l with
    | .fin x, .fin y => .fin (x + y)
    | .minf, _ => .minf
    | _, .minf => .minf
    | _, _ => .pinf)
   (match i.r, j.r with
    | .fin x, .fin y => .fin (x + y)
    | .pinf, _ => .pinf
    | _, .pinf => .pinf
    | _, _ => .minf)

/-- Unary minus, domain.hpp:237. -/
def Itv.opp (i : Itv K) : Option (Itv K) := mkItv i.r.opp i.l.opp

/-- `operator-`, domain.hpp:240. -/
def Itv.sub (i j : Itv K) : Option (Itv K) := j.opp.bind i.add

/-- `operator*`, domain.hpp:248-261. -/
def Itv.mul (i j : Itv K) : Option (Itv K) :=
  if i.isZero || j.isZero then some (single 0)
  else
    let b0 := i.r.mul j.r
    let b1 := i.r.mul j.l
    let b2 := i.l.mul j.r
    let b3 := i.l.mul j.l
    mkItv (min (min b0 b1) (min b2 b3)) (max (max b0 b1) (max b2 b3))

/-- `Inverse`, domain.hpp:264-300. -/
def Itv.inv (i : Itv K) : Option (Itv K) :=
  match i.isSingleton with
  | some v => if v = 0 then none else some (single (1 / v))
  | none =>
    match i.l, i.r with
    | .fin a, .fin b =>
      if 0 < a ∨ b < 0 then mkItv (.fin (1 / b)) (.fin (1 / a))
      else if a = 0 then mkItv (.fin (1 / b)) .pinf
      else if b = 0 then mkItv .minf (.fin (1 / a))
      else mkItv .minf .pinf
    | .fin a, _ =>
      if 0 < a then mkItv (.fin 0) (.fin (1 / a))
      else if a = 0 then mkItv (.fin 0) .pinf
      else mkItv .minf .pinf
    | _, .fin b =>
      if b < 0 then mkItv (.fin (1 / b)) (.fin 0)
      else if b = 0 then mkItv .minf (.fin 0)
      else mkItv .minf .pinf
    | _, _ => mkItv .minf .pinf

/-- `operator/`, domain.hpp:303. -/
def Itv.div (i j : Itv K) : Option (Itv K) := j.inv.bind i.mul

/-- `IMin`, domain.hpp:306-316. -/
def Itv.imin (i j : Itv K) : Option (Itv K) :=
  mkItv (if j.l < i.l then j.l else i.l) (if j.r < i.r then j.r else i.r)

/-- `IMax`, domain.hpp:318-328. -/
def Itv.imax (i j : Itv K) : Option (Itv K) :=
  mkItv (if i.l < j.l then j.l else i.l) (if i.r < j.r then j.r else i.r)

/-- `Merge(rhs)`, domain.hpp:436-441. -/
def Itv.merge (i j : Itv K) : Itv K :=
  ⟨if j.l < i.l then j.l else i.l, if i.r < j.r then j.r else i.r⟩

/-- `operator<`, domain.hpp:201-203. -/
def Itv.lt (i j : Itv K) : Bool := decide (i.l < j.l) || (decide (i.l = j.l) && decide (i.r < j.r))

/-- `Domain_`, domain.hpp:444-445: the set of intervals, in order. -/
abbrev Dom (K : Type) := List (Itv K)

/-- Lines 496-517 of `AddInterval`: an interval of the set that meets `i`, if any.  The outer `none` stands for
`--begin()`, undefined behaviour (`C32_add_total` shows it cannot happen). -/
def findMeet (m : Dom K) (i : Itv K) : Option (Option (Itv K)) :=
  match m.head?, m.getLast? with
  | some first, some last =>
    if i.r < first.l then some none
    else if last.r < i.l then some none
    else
      let pre := m.takeWhile fun e => e.lt i
      let cand := match m.dropWhile fun e => e.lt i with
        | [] => pre.getLast?
        | e :: _ => if i.r < e.l then pre.getLast? else some e
      match cand with
      | none => none
      | some c => if c.r < i.l then some none else some (some c)
  | _, _ => some none

/-- `std::set::insert`. -/
def insertItv (m : Dom K) (i : Itv K) : Dom K := (m.takeWhile fun e => e.lt i) ++ i :: m.dropWhile fun e => e.lt i

/-- The loop of `AddInterval`, domain.hpp:470-541; the first argument bounds the number of rounds
(`C32_add_total`: the size of the set plus one suffices). -/
def addLoop : Nat → Dom K → Itv K → Option (Dom K)
  | 0, _, _ => none
  | n + 1, m, i =>
    if m = [] then some [i]
    else if i.l = .minf ∧ i.r = .pinf then some [⟨.minf, .pinf⟩]
    else
      match findMeet m i with
      | none => none
      | some none => some (insertItv m i)
      | some (some c) => addLoop n (m.erase c) (i.merge c)

/-- `AddInterval`. -/
def addItv (m : Dom K) (i : Itv K) : Option (Dom K) := addLoop (m.length + 1) m i

/-- Adding computed intervals one after the other. -/
def addAll (m : Dom K) : List (Option (Itv K)) → Option (Dom K)
  | [] => some m
  | none :: _ => none
  | some i :: l => (addItv m i).bind fun m' => addAll m' l

/-- `AddDomain`, domain.hpp:543-546. -/
def addDomain (m n : Dom K) : Option (Dom K) := addAll m (n.map some)

/-- The double loops of `operator+`, `-`, `*`, `/`, `DMin`, `DMax`, domain.hpp:674-790. -/
def domBin (f : Itv K → Itv K → Option (Itv K)) (a b : Dom K) : Option (Dom K) :=
  addAll [] (a.flatMap fun i => b.map fun j => f i j)

/-- Unary minus, domain.hpp:686-694. -/
def domOpp (a : Dom K) : Option (Dom K) := addAll [] (a.map Itv.opp)

/-- `GetSingletons()`, domain.hpp:582-593. -/
def singletons : Dom K → Option (List K)
  | [] => some []
  | i :: m =>
    match i.isSingleton with
    | none => none
    | some v => (singletons m).map (v :: ·)

/-- `ApplyFunc`, domain.hpp:793-811. -/
def applyFunc (f : K → K) (range : Itv K) (a : Dom K) : Option (Dom K) :=
  match singletons a with
  | some (v :: vs) => addAll [] ((v :: vs).map fun x => some (single (f x)))
  | _ => addAll [] [some range]

/-- `ApplyFunc2`, domain.hpp:814-833. -/
def applyFunc2 (f : K → K → K) (range : Itv K) (a b : Dom K) : Option (Dom K) :=
  match singletons a, singletons b with
  | some (v :: vs), some (w :: ws) =>
    addAll [] ((v :: vs).flatMap fun x => (w :: ws).map fun y => some (single (f x y)))
  | _, _ => addAll [] [some range]

/-- `CanBeZero`, domain.hpp:849 with 371 and 836. -/
def canBeZero (a : Dom K) : Bool := a.any fun i => decide (i.l ≤ .fin 0) && decide (.fin 0 ≤ i.r)

/-- `CanBeNonZero`, domain.hpp:851-856. -/
def canBeNonZero : Dom K → Bool
  | [] => false
  | [i] => !i.isZero
  | _ => true

/-- `ZeroIsDiscrete`, domain.hpp:858-862. -/
def zeroIsDiscrete (a : Dom K) : Bool := a.any Itv.isZero

/-- `CanBePositive`, domain.hpp:870-876. -/
def canBePositive (strict : Bool) (a : Dom K) : Bool :=
  match a.getLast? with
  | none => false
  | some i => if strict then decide (.fin 0 < i.r) else decide (.fin 0 ≤ i.r)

/-- `CanBeNegative`, domain.hpp:878-885. -/
def canBeNegative (strict : Bool) (a : Dom K) : Bool :=
  match a.head? with
  | none => false
  | some i => if strict then decide (i.l < .fin 0) else decide (i.l ≤ .fin 0)

/-- `Val()` of a bound that is a number; an infinity has no value here. -/
def Bd.val? : Bd K → Option K
  | .fin x => some x
  | _ => none

/-- `SmallestPosLb(res, true)`, domain.hpp:888-897: the first left bound above zero. -/
def smallestPosLb (a : Dom K) : Option K := (a.find? fun i => decide (.fin 0 < i.l)).bind fun i => i.l.val?

/-- `BiggestNegRb(res, true)`, domain.hpp:900-909: the last right bound below zero. -/
def biggestNegRb (a : Dom K) : Option K := (a.reverse.find? fun i => decide (i.r < .fin 0)).bind fun i => i.r.val?

/-! ### The processor, domainproc.hpp -/

/-- The whole line. -/
def line : Itv K := ⟨.minf, .pinf⟩

/-- The half line from zero. -/
def halfLine : Itv K := ⟨.fin 0, .pinf⟩

/-- `Visit(NodeMax_)` and `Visit(NodeMin_)`, lines 142-162: the domains of the arguments, last one first. -/
def foldDom (f : Itv K → Itv K → Option (Itv K)) : List (Dom K) → Option (Dom K)
  | [] => none
  | d :: ds => ds.foldl (fun acc x => acc.bind fun a => domBin f a x) (some d)

/-- Whether the node that `extra` extends is a `MAX`. -/
def isMax : Expr Nat K → Bool
  | .bin .max _ _ _ => true
  | .extra m _ _ => isMax m
  | _ => false

/-- `IMax` or `IMin`. -/
def itvExt (b : Bool) : Itv K → Itv K → Option (Itv K) := if b then Itv.imax else Itv.imin

mutual
/-- Expressions, lines 77-162 and 416-434. -/
def domE (o : Ops K) (δ : Nat → Dom K) : Expr Nat K → Option (Dom K)
  | .bin op l r _ =>
    match domE o δ l, domE o δ r with
    | some a, some b =>
      match op with
      | .add => domBin Itv.add a b
      | .sub => domBin Itv.sub a b
      | .mul => domBin Itv.mul a b
      | .div => domBin Itv.div a b
      | .pow => applyFunc2 o.pow line a b
      | .max => foldDom Itv.imax [b, a]
      | .min => foldDom Itv.imin [b, a]
    | _, _ => none
  | .un op a _ =>
    match domE o δ a with
    | none => none
    | some d =>
      match op with
      | .uplus => some d
      | .uminus => domOpp d
      | .log => applyFunc o.log halfLine d
      | .sqrt => applyFunc o.sqrt halfLine d
      | .exp => applyFunc o.exp line d
  | .extra m x _ =>
    match domArgs o δ m, domE o δ x with
    | some ds, some d => foldDom (itvExt (isMax m)) (d :: ds)
    | _, _ => none
  | .const c => some [single c]
  | .var i _ => some (δ i)
  | .constVar _ c => some [single c]
  | .spot => some [line]
/-- The domains of the arguments of a `MAX`/`MIN` node, last one first. -/
def domArgs (o : Ops K) (δ : Nat → Dom K) : Expr Nat K → Option (List (Dom K))
  | .bin _ l r _ =>
    match domE o δ l, domE o δ r with
    | some a, some b => some [b, a]
    | _, _ => none
  | .extra m x _ =>
    match domArgs o δ m, domE o δ x with
    | some ds, some d => some (d :: ds)
    | _, _ => none
  | _ => none
end

/-- `DomainCondProp_`, lines 16-23. -/
inductive CProp
  | always | never | either
  deriving DecidableEq

/-- The flags written for a property. -/
def CProp.flags : CProp → Flags
  | .always => ⟨true, false⟩
  | .never => ⟨false, true⟩
  | .either => ⟨false, false⟩

/-- Lines 166-203 and 225-272: the property of a comparison of a value in `d` with zero. -/
def cmpProp (op : CmpOp) (d : Dom K) : CProp :=
  match op with
  | .equal => if !canBeZero d then .never else if !canBeNonZero d then .always else .either
  | .sup => if !canBePositive true d then .never else if !canBeNegative false d then .always else .either
  | .supEq => if !canBePositive false d then .never else if !canBeNegative true d then .always else .either

/-- Lines 185-199 and 245-268: what the smoothed evaluator will use (`fuzzy_` set, property undecided).  When no
bound is found the attribute keeps its value. -/
def cmpAttr (op : CmpOp) (d : Dom K) (a : CmpAttr K) : CmpAttr K :=
  match op with
  | .equal =>
    if zeroIsDiscrete d then
      { a with discrete := true, rb := (smallestPosLb d).getD (1 / 2), lb := (biggestNegRb d).getD (-(1 / 2)) }
    else { a with discrete := false }
  | .sup =>
    if !canBeZero d then { a with discrete := true, rb := (smallestPosLb d).getD a.rb, lb := (biggestNegRb d).getD a.lb }
    else if zeroIsDiscrete d then { a with discrete := true, lb := 0, rb := (smallestPosLb d).getD a.rb }
    else { a with discrete := false }
  | .supEq =>
    if !canBeZero d then { a with discrete := true, rb := (smallestPosLb d).getD a.rb, lb := (biggestNegRb d).getD a.lb }
    else if zeroIsDiscrete d then { a with discrete := true, rb := 0, lb := (biggestNegRb d).getD a.lb }
    else { a with discrete := false }

/-- Conditions, lines 164-317. -/
def domC (o : Ops K) (fuzzy : Bool) (δ : Nat → Dom K) : Cond Nat K → Option (Cond Nat K × CProp)
  | .cmp op e a _ =>
    match domE o δ e with
    | none => none
    | some d =>
      let p := cmpProp op d
      some (.cmp op e (if fuzzy && decide (p = .either) then cmpAttr op d a else a) p.flags, p)
  | .and l r _ =>
    match domC o fuzzy δ l, domC o fuzzy δ r with
    | some (l', p1), some (r', p2) =>
      let p := if p1 = .always ∧ p2 = .always then .always else if p1 = .never ∨ p2 = .never then .never else .either
      some (.and l' r' p.flags, p)
    | _, _ => none
  | .or l r _ =>
    match domC o fuzzy δ l, domC o fuzzy δ r with
    | some (l', p1), some (r', p2) =>
      let p := if p1 = .always ∨ p2 = .always then .always else if p1 = .never ∧ p2 = .never then .never else .either
      some (.or l' r' p.flags, p)
    | _, _ => none
  | .not c _ =>
    match domC o fuzzy δ c with
    | some (c', p1) =>
      let p := match p1 with
        | .always => .never
        | .never => .always
        | .either => .either
      some (.not c' p.flags, p)
    | none => none
  | .tt => none
  | .ff => none

/-- Lines 371-372. -/
def mergeVars (δ1 : Nat → Dom K) : List Nat → (Nat → Dom K) → Option (Nat → Dom K)
  | [], δ => some δ
  | j :: af, δ => (addDomain (δ j) (δ1 j)).bind fun d => mergeVars δ1 af (upd δ j d)

mutual
/-- Statements, lines 320-414.  `NodeTrue_`, `NodeFalse_` and `NodeCollect_` do not exist yet when the domains are
processed; `NodeCollect_` has the default visit. -/
def domS (o : Ops K) (fuzzy : Bool) : Stmt Nat K → (Nat → Dom K) → Option (Stmt Nat K × (Nat → Dom K))
  | .assign x e, δ => (domE o δ e).map fun d => (.assign x e, upd δ x.v d)
  | .pays x e, δ =>
    (domE o δ e).bind fun d => (domBin Itv.div d [halfLine]).bind fun p => (domBin Itv.add (δ x.v) p).map fun q =>
      (.pays x e, upd δ x.v q)
  | .ite c t he e af _, δ =>
    (domC o fuzzy δ c).bind fun cp =>
      match cp.2 with
      | .always => (domSs o fuzzy t δ).map fun r => (.ite cp.1 r.1 he e af ⟨true, false⟩, r.2)
      | .never =>
        if he then (domSs o fuzzy e δ).map fun r => (.ite cp.1 t he r.1 af ⟨false, true⟩, r.2)
        else some (.ite cp.1 t he e af ⟨false, true⟩, δ)
      | .either =>
        (domSs o fuzzy t δ).bind fun r1 =>
          let δr : Nat → Dom K := fun j => if j ∈ af then δ j else r1.2 j
          (if he then domSs o fuzzy e δr else some (e, δr)).bind fun r2 =>
            (mergeVars r1.2 af r2.2).map fun δ' => (.ite cp.1 r1.1 he r2.1 af ⟨false, false⟩, δ')
  | .collect b, δ => (domSs o fuzzy b δ).map fun r => (.collect r.1, r.2)
/-- Statements in order. -/
def domSs (o : Ops K) (fuzzy : Bool) : Stmts Nat K → (Nat → Dom K) → Option (Stmts Nat K × (Nat → Dom K))
  | .nil, δ => some (.nil, δ)
  | .cons s ss, δ => (domS o fuzzy s δ).bind fun r1 => (domSs o fuzzy ss r1.2).map fun r2 => (.cons r1.1 r2.1, r2.2)
end

/-- `DomainProcess`, event.cpp:116-119: past events, then future events. -/
def domEvents (o : Ops K) (fuzzy : Bool) : List (Stmts Nat K) → (Nat → Dom K) → Option (List (Stmts Nat K) × (Nat → Dom K))
  | [], δ => some ([], δ)
  | ev :: evs, δ => (domSs o fuzzy ev δ).bind fun r1 => (domEvents o fuzzy evs r1.2).map fun r2 => (r1.1 :: r2.1, r2.2)

/-- The initial domains {0}, line 67. -/
def domInit : Nat → Dom K := fun _ => [single 0]

end Dal.Script
