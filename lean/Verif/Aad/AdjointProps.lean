import Mathlib.Algebra.BigOperators.Group.Finset.Basic
import Mathlib.Tactic.Ring
import Mathlib.Tactic.Linarith
import Mathlib.Tactic.FieldSimp
import Verif.Aad.AdjointModel

/-! # C43: adjoint propagation computes the gradient -/

namespace Dal

open Dal.Adj

/-! ### Where the operators are differentiable -/

/-- The points at which an operator has a derivative, for `pow` the ones with a positive base; for the two library functions the
derivative is taken to be what the code takes it to be. -/
def UOp.Regular (lib : Lib) : UOp → ℝ → ℝ → Prop
  | .log, r, _ => 0 < r
  | .sqrt, r, _ => 0 < r
  | .fabs, r, _ => r ≠ 0
  | .npdf, r, _ => -10 < r ∧ r < 10
  | .ncdf, r, _ => HasDerivAt lib.ncdf (npdf r) r
  | .erfc, r, _ => HasDerivAt lib.erfc (-1.12837916709551 * Real.exp (-r * r)) r
  | .divDL, r, _ => r ≠ 0
  | .powDL, _, d => 0 < d
  | .powDR, r, _ => 0 < r
  | .maxD, r, d => r ≠ d
  | .minD, r, d => r ≠ d
  | _, _, _ => True

/-- The points at which an operator with two operands has a derivative. -/
def BOp.Regular : BOp → ℝ → ℝ → Prop
  | .div, _, r => r ≠ 0
  | .pow, l, _ => 0 < l
  | .max, l, r => l ≠ r
  | .min, l, r => l ≠ r
  | _, _, _ => True

/-- An expression evaluated at regular points only. -/
def Ex.Regular (lib : Lib) (env : Nat → ℝ) : Ex → Prop
  | .num _ => True
  | .un op d e => Ex.Regular lib env e ∧ UOp.Regular lib op (e.value lib env) d
  | .bin op a b => Ex.Regular lib env a ∧ Ex.Regular lib env b ∧ BOp.Regular op (a.value lib env) (b.value lib env)

/-- An expression of numbers recorded before position `k`. -/
def Ex.Before (k : Nat) : Ex → Prop
  | .num i => i < k
  | .un _ _ e => Ex.Before k e
  | .bin _ a b => Ex.Before k a ∧ Ex.Before k b

/-- A program from position `k` on that only uses numbers recorded before, at regular points. -/
def Sound (lib : Lib) : List Stmt → Nat → (Nat → ℝ) → Prop
  | [], _, _ => True
  | .leaf v :: p, k, env => Sound lib p (k + 1) (Function.update env k v)
  | .expr e :: p, k, env => Ex.Before k e ∧ Ex.Regular lib env e ∧ Sound lib p (k + 1) (Function.update env k (e.value lib env))

private theorem hasDerivAt_max_of_gt {f g : ℝ → ℝ} {f' x : ℝ} (hf : HasDerivAt f f' x) (hg : ContinuousAt g x) (h : g x < f x) :
    HasDerivAt (fun y => max (f y) (g y)) f' x := by
  apply hf.congr_of_eventuallyEq
  have : ∀ᶠ y in nhds x, g y < f y := hg.eventually_lt hf.continuousAt h
  filter_upwards [this] with y hy
  exact max_eq_left hy.le

private theorem hasDerivAt_min_of_lt {f g : ℝ → ℝ} {f' x : ℝ} (hf : HasDerivAt f f' x) (hg : ContinuousAt g x) (h : f x < g x) :
    HasDerivAt (fun y => min (f y) (g y)) f' x := by
  apply hf.congr_of_eventuallyEq
  have : ∀ᶠ y in nhds x, f y < g y := hf.continuousAt.eventually_lt hg h
  filter_upwards [this] with y hy
  exact min_eq_left hy.le

private theorem uop_deriv (lib : Lib) (op : UOp) (d : ℝ) {f : ℝ → ℝ} {f' x : ℝ} (hf : HasDerivAt f f' x)
    (h : UOp.Regular lib op (f x) d) :
    HasDerivAt (fun y => op.eval lib (f y) d) (op.der (f x) (op.eval lib (f x) d) d * f') x := by
  cases op with
  | exp => exact hf.exp
  | log =>
    have := hf.log h.ne'
    simp only [UOp.eval, UOp.der]
    exact this.congr_deriv (by ring)
  | sqrt =>
    have h' : (0 : ℝ) < f x := h
    have := hf.sqrt h'.ne'
    simp only [UOp.eval, UOp.der]
    exact this.congr_deriv (by ring)
  | fabs =>
    simp only [UOp.eval, UOp.der]
    rcases lt_or_gt_of_ne (show f x ≠ 0 from h) with h' | h'
    · rw [if_neg (not_lt.2 h'.le)]
      have h1 : HasDerivAt (fun y => -f y) (-f') x := hf.neg
      have h2 : ∀ᶠ y in nhds x, f y < 0 := hf.continuousAt.eventually_lt continuousAt_const h'
      have h3 : HasDerivAt (fun y => |f y|) (-f') x := h1.congr_of_eventuallyEq (by
        filter_upwards [h2] with y hy
        exact abs_of_neg hy)
      exact h3.congr_deriv (by ring)
    · rw [if_pos h']
      have h2 : ∀ᶠ y in nhds x, 0 < f y := continuousAt_const.eventually_lt hf.continuousAt h'
      have h3 : HasDerivAt (fun y => |f y|) f' x := hf.congr_of_eventuallyEq (by
        filter_upwards [h2] with y hy
        exact abs_of_pos hy)
      exact h3.congr_deriv (by ring)
  | npdf =>
    simp only [UOp.eval, UOp.der]
    obtain ⟨h1, h2⟩ : -10 < f x ∧ f x < 10 := h
    have hv : ∀ z : ℝ, -10 < z → z < 10 → npdf z = Real.exp (-0.5 * z * z) / 2.506628274631 := by
      intro z hz1 hz2
      unfold npdf
      rw [if_neg]
      rintro (h | h) <;> linarith
    have h3 : HasDerivAt (fun y => Real.exp (-0.5 * f y * f y) / 2.506628274631)
        (Real.exp (-0.5 * f x * f x) * (-0.5 * f' * f x + -0.5 * f x * f') / 2.506628274631) x :=
      (((hf.const_mul (-0.5 : ℝ)).mul hf).exp).div_const _
    have e1 : ∀ᶠ y in nhds x, -10 < f y := continuousAt_const.eventually_lt hf.continuousAt h1
    have e2 : ∀ᶠ y in nhds x, f y < 10 := hf.continuousAt.eventually_lt continuousAt_const h2
    have h4 := h3.congr_of_eventuallyEq (f₁ := fun y => npdf (f y)) (by
      filter_upwards [e1, e2] with y hy1 hy2
      exact hv _ hy1 hy2)
    rw [hv _ h1 h2]
    exact h4.congr_deriv (by ring)
  | ncdf => exact HasDerivAt.comp x (h₂ := lib.ncdf) h hf
  | erfc => exact HasDerivAt.comp x (h₂ := lib.erfc) h hf
  | multD =>
    simp only [UOp.eval, UOp.der]
    exact (hf.mul_const d).congr_deriv (by ring)
  | addD =>
    simp only [UOp.eval, UOp.der, one_mul]
    exact hf.add_const d
  | subDL =>
    simp only [UOp.eval, UOp.der]
    exact (hf.const_sub d).congr_deriv (by ring)
  | subDR =>
    simp only [UOp.eval, UOp.der, one_mul]
    exact hf.sub_const d
  | divDL =>
    have h' : f x ≠ 0 := h
    simp only [UOp.eval, UOp.der]
    have := (hasDerivAt_const x d).div hf h'
    exact this.congr_deriv (by field_simp; ring)
  | divDR =>
    simp only [UOp.eval, UOp.der]
    exact (hf.div_const d).congr_deriv (by ring)
  | powDL =>
    have h' : (0 : ℝ) < d := h
    simp only [UOp.eval, UOp.der]
    have := (hasDerivAt_const x d).rpow hf h'
    exact this.congr_deriv (by ring)
  | powDR =>
    have h' : (0 : ℝ) < f x := h
    simp only [UOp.eval, UOp.der]
    have := hf.rpow (hasDerivAt_const x d) h'
    exact this.congr_deriv (by rw [Real.rpow_sub_one h'.ne']; ring)
  | maxD =>
    simp only [UOp.eval, UOp.der]
    rcases lt_or_gt_of_ne (show f x ≠ d from h) with h' | h'
    · rw [if_neg (not_lt.2 h'.le), zero_mul]
      have := hasDerivAt_max_of_gt (f := fun _ => d) (g := f) (hasDerivAt_const x d) hf.continuousAt h'
      simpa only [max_comm] using this
    · rw [if_pos h', one_mul]
      exact hasDerivAt_max_of_gt hf continuousAt_const h'
  | minD =>
    simp only [UOp.eval, UOp.der]
    rcases lt_or_gt_of_ne (show f x ≠ d from h) with h' | h'
    · rw [if_pos h', one_mul]
      exact hasDerivAt_min_of_lt hf continuousAt_const h'
    · rw [if_neg (not_lt.2 h'.le), zero_mul]
      have := hasDerivAt_min_of_lt (f := fun _ => d) (g := f) (hasDerivAt_const x d) hf.continuousAt h'
      simpa only [min_comm] using this

private theorem bop_deriv (op : BOp) {f g : ℝ → ℝ} {f' g' x : ℝ} (hf : HasDerivAt f f' x) (hg : HasDerivAt g g' x)
    (h : BOp.Regular op (f x) (g x)) :
    HasDerivAt (fun y => op.eval (f y) (g y))
      (op.left (f x) (g x) (op.eval (f x) (g x)) * f' + op.right (f x) (g x) (op.eval (f x) (g x)) * g') x := by
  cases op with
  | mult =>
    simp only [BOp.eval, BOp.left, BOp.right]
    exact (hf.mul hg).congr_deriv (by ring)
  | add =>
    simp only [BOp.eval, BOp.left, BOp.right, one_mul]
    exact hf.add hg
  | sub =>
    simp only [BOp.eval, BOp.left, BOp.right]
    exact (hf.sub hg).congr_deriv (by ring)
  | div =>
    have h' : g x ≠ 0 := h
    simp only [BOp.eval, BOp.left, BOp.right]
    exact (hf.div hg h').congr_deriv (by field_simp; ring)
  | pow =>
    have h' : (0 : ℝ) < f x := h
    simp only [BOp.eval, BOp.left, BOp.right]
    exact (hf.rpow hg h').congr_deriv (by rw [Real.rpow_sub_one h'.ne']; ring)
  | max =>
    simp only [BOp.eval, BOp.left, BOp.right]
    rcases lt_or_gt_of_ne (show f x ≠ g x from h) with h' | h'
    · rw [if_neg (not_lt.2 h'.le), if_pos h', zero_mul, zero_add, one_mul]
      have := hasDerivAt_max_of_gt hg hf.continuousAt h'
      simpa only [max_comm] using this
    · rw [if_pos h', if_neg (not_lt.2 h'.le), zero_mul, add_zero, one_mul]
      exact hasDerivAt_max_of_gt hf hg.continuousAt h'
  | min =>
    simp only [BOp.eval, BOp.left, BOp.right]
    rcases lt_or_gt_of_ne (show f x ≠ g x from h) with h' | h'
    · rw [if_pos h', if_neg (not_lt.2 h'.le), zero_mul, add_zero, one_mul]
      exact hasDerivAt_min_of_lt hf hg.continuousAt h'
    · rw [if_neg (not_lt.2 h'.le), if_pos h', zero_mul, zero_add, one_mul]
      have := hasDerivAt_min_of_lt hg hf.continuousAt h'
      simpa only [min_comm] using this

/-! ### The chain rule along a program -/

/-- The sum of derivatives times tangents over a node. -/
noncomputable def Adj.tangent (D : Nat → ℝ) (nd : Node) : ℝ := (nd.map fun a => a.2 * D a.1).sum

theorem Adj.tangent_append (D : Nat → ℝ) (a b : Node) : tangent D (a ++ b) = tangent D a + tangent D b := by
  simp [tangent]

private theorem push_deriv (lib : Lib) (E : ℝ → Nat → ℝ) (D : Nat → ℝ) (x : ℝ) (hE : ∀ j, HasDerivAt (fun r => E r j) (D j) x) :
    ∀ (e : Ex) (adj : ℝ), Ex.Regular lib (E x) e → ∃ e', HasDerivAt (fun r => e.value lib (E r)) e' x ∧
      tangent D (e.push lib (E x) adj) = adj * e' := by
  intro e
  induction e with
  | num i =>
    intro adj _
    exact ⟨D i, hE i, by simp [Ex.push, tangent]⟩
  | un op d e ih =>
    intro adj h
    obtain ⟨e', h1, h2⟩ := ih (adj * op.der (e.value lib (E x)) (op.eval lib (e.value lib (E x)) d) d) h.1
    exact ⟨_, uop_deriv lib op d h1 h.2, by rw [Ex.push, h2, mul_assoc]⟩
  | bin op a b iha ihb =>
    intro adj h
    obtain ⟨a', h1, h2⟩ := iha (adj * op.left (a.value lib (E x)) (b.value lib (E x)) (op.eval (a.value lib (E x)) (b.value lib (E x)))) h.1
    obtain ⟨b', h3, h4⟩ := ihb (adj * op.right (a.value lib (E x)) (b.value lib (E x)) (op.eval (a.value lib (E x)) (b.value lib (E x)))) h.2.1
    refine ⟨_, bop_deriv op h1 h3 h.2.2, ?_⟩
    rw [Ex.push]
    rw [tangent_append, h2, h4]
    ring

/-- The program with the number of its statement number `i` replaced by `r`: what an input does. -/
def setInput (p : List Stmt) (i : Nat) (r : ℝ) : List Stmt := p.set i (.leaf r)

private noncomputable def tangents (ns : List Node) (k : Nat) (D : Nat → ℝ) : Nat → ℝ :=
  match ns with
  | [] => D
  | nd :: ns => tangents ns (k + 1) (Function.update D k (tangent D nd))

private theorem program_deriv (lib : Lib) (x : ℝ) : ∀ (p : List Stmt) (k : Nat) (E : ℝ → Nat → ℝ) (D : Nat → ℝ),
    (∀ j, HasDerivAt (fun r => E r j) (D j) x) → Sound lib p k (E x) →
    ∀ j, HasDerivAt (fun r => values lib p k (E r) j) (tangents (nodes lib p k (E x)) k D j) x := by
  intro p
  induction p with
  | nil => intro k E D hE _ j; exact hE j
  | cons s p ih =>
    intro k E D hE hs j
    cases s with
    | leaf v =>
      exact ih (k + 1) (fun r => Function.update (E r) k v) (Function.update D k (tangent D [])) (fun j => by
        by_cases hj : j = k
        · subst hj
          simp only [Function.update_self]
          simpa [tangent] using hasDerivAt_const x v
        · simp only [Function.update_of_ne hj]
          exact hE j) hs j
    | expr e =>
      obtain ⟨e', h1, h2⟩ := push_deriv lib E D x hE e 1 hs.2.1
      exact ih (k + 1) (fun r => Function.update (E r) k (e.value lib (E r))) (Function.update D k (tangent D (e.push lib (E x) 1)))
        (fun j => by
          by_cases hj : j = k
          · subst hj
            simp only [Function.update_self]
            rw [h2, one_mul]
            exact h1
          · simp only [Function.update_of_ne hj]
            exact hE j) hs.2.2 j

/-! ### The tape of a program and the tangents -/

/-- The derivatives `D` of all numbers of a tape in the input `i`: each node adds up its arguments, and arguments come before. -/
structure Adj.Lin (tape : List Node) (D : Nat → ℝ) (i : Nat) : Prop where
  rule : ∀ k nd, tape[k]? = some nd → k ≠ i → D k = tangent D nd
  leaf : tape[i]? = some []
  one : D i = 1
  back : ∀ (k : Nat) (nd : Node), tape[k]? = some nd → ∀ a ∈ nd, a.1 < k

theorem Adj.push_before (lib : Lib) (env : Nat → ℝ) {k : Nat} : ∀ (e : Ex) (adj : ℝ), Ex.Before k e → ∀ a ∈ e.push lib env adj, a.1 < k := by
  intro e
  induction e with
  | num i =>
    intro adj h a ha
    simp only [Ex.push, List.mem_singleton] at ha
    rw [ha]
    exact h
  | un op d e ih => intro adj h; exact ih _ h
  | bin op a b iha ihb =>
    intro adj h x hx
    rw [Ex.push] at hx
    rcases List.mem_append.1 hx with hx | hx
    · exact iha _ h.1 x hx
    · exact ihb _ h.2 x hx

theorem Adj.nodes_length (lib : Lib) : ∀ (p : List Stmt) (k : Nat) (env : Nat → ℝ), (nodes lib p k env).length = p.length := by
  intro p
  induction p with
  | nil => intro k env; rfl
  | cons s p ih => intro k env; simp [nodes, ih]

private theorem nodes_append (lib : Lib) : ∀ (p q : List Stmt) (k : Nat) (env : Nat → ℝ),
    nodes lib (p ++ q) k env = nodes lib p k env ++ nodes lib q (k + p.length) (values lib p k env) := by
  intro p
  induction p with
  | nil => intro q k env; rfl
  | cons s p ih =>
    intro q k env
    rw [List.cons_append, nodes, ih, nodes, List.cons_append, List.length_cons, values, show k + 1 + p.length = k + (p.length + 1) by omega]

private theorem values_append (lib : Lib) : ∀ (p q : List Stmt) (k : Nat) (env : Nat → ℝ),
    values lib (p ++ q) k env = values lib q (k + p.length) (values lib p k env) := by
  intro p
  induction p with
  | nil => intro q k env; rfl
  | cons s p ih =>
    intro q k env
    rw [List.cons_append, values, ih, values, List.length_cons, show k + 1 + p.length = k + (p.length + 1) by omega]

private theorem sound_append (lib : Lib) : ∀ (p q : List Stmt) (k : Nat) (env : Nat → ℝ),
    Sound lib (p ++ q) k env ↔ Sound lib p k env ∧ Sound lib q (k + p.length) (values lib p k env) := by
  intro p
  induction p with
  | nil => intro q k env; simp [Sound, values]
  | cons s p ih =>
    intro q k env
    cases s with
    | leaf v =>
      rw [List.cons_append, Sound, ih, Sound, values, List.length_cons, show k + 1 + p.length = k + (p.length + 1) by omega]
      rfl
    | expr e =>
      rw [List.cons_append, Sound, ih, Sound, values, List.length_cons, show k + 1 + p.length = k + (p.length + 1) by omega]
      simp only [and_assoc]
      rfl

theorem Adj.nodes_back (lib : Lib) : ∀ (p : List Stmt) (k : Nat) (env : Nat → ℝ), Sound lib p k env →
    ∀ (t : Nat) (nd : Node), (nodes lib p k env)[t]? = some nd → ∀ a ∈ nd, a.1 < k + t := by
  intro p
  induction p with
  | nil => intro k env _ t nd h; simp [nodes] at h
  | cons s p ih =>
    intro k env hs t nd h a ha
    cases t with
    | zero =>
      simp only [nodes, List.getElem?_cons_zero, Option.some.injEq] at h
      subst h
      cases s with
      | leaf v => simp [Stmt.node] at ha
      | expr e => exact push_before lib env e 1 hs.1 a ha
    | succ t =>
      simp only [nodes, List.getElem?_cons_succ] at h
      have hs' : Sound lib p (k + 1) (Function.update env k (s.value lib env)) := by
        cases s with
        | leaf v => exact hs
        | expr e => exact hs.2.2
      have := ih (k + 1) _ hs' t nd h a ha
      omega

theorem Adj.tangent_congr {D D' : Nat → ℝ} {nd : Node} (h : ∀ a ∈ nd, D a.1 = D' a.1) : tangent D nd = tangent D' nd := by
  unfold tangent
  congr 1
  exact List.map_congr_left (fun a ha => by rw [h a ha])

private theorem tangents_below : ∀ (ns : List Node) (k : Nat) (D : Nat → ℝ) (j : Nat), j < k → tangents ns k D j = D j := by
  intro ns
  induction ns with
  | nil => intro k D j _; rfl
  | cons nd ns ih =>
    intro k D j hj
    rw [tangents, ih (k + 1) _ j (by omega), Function.update_of_ne (by omega)]

private theorem tangents_rule : ∀ (ns : List Node) (k : Nat) (D : Nat → ℝ),
    (∀ (t : Nat) (nd : Node), ns[t]? = some nd → ∀ a ∈ nd, a.1 < k + t) →
    ∀ (t : Nat) (nd : Node), ns[t]? = some nd → tangents ns k D (k + t) = tangent (tangents ns k D) nd := by
  intro ns
  induction ns with
  | nil => intro k D _ t nd h; simp at h
  | cons n0 ns ih =>
    intro k D hb t nd h
    cases t with
    | zero =>
      simp only [List.getElem?_cons_zero, Option.some.injEq] at h
      subst h
      show tangents ns (k + 1) (Function.update D k (tangent D n0)) k = tangent (tangents ns (k + 1) (Function.update D k (tangent D n0))) n0
      rw [tangents_below ns (k + 1) _ k (by omega), Function.update_self]
      apply tangent_congr
      intro a ha
      have := hb 0 n0 (by simp) a ha
      rw [tangents_below ns (k + 1) _ _ (by omega), Function.update_of_ne (by omega)]
    | succ t =>
      simp only [List.getElem?_cons_succ] at h
      rw [tangents, show k + (t + 1) = k + 1 + t by omega]
      exact ih (k + 1) _ (fun t' nd' h' a ha => by
        have := hb (t' + 1) nd' (by simpa using h') a ha
        omega) t nd h

/-- The derivatives of all numbers of a program in one of its inputs. -/
private theorem program_lin (lib : Lib) (p1 p2 : List Stmt) (v : ℝ) (env0 : Nat → ℝ) (hs : Sound lib (p1 ++ .leaf v :: p2) 0 env0) :
    ∃ D : Nat → ℝ, Lin (nodes lib (p1 ++ .leaf v :: p2) 0 env0) D p1.length ∧
      (∀ j, HasDerivAt (fun r => values lib (p1 ++ .leaf r :: p2) 0 env0 j) (D j) v) ∧
      (∀ k, p1.length < k → k < p1.length + 1 → D k = 0) := by
  obtain ⟨hs1, hs2⟩ := (sound_append lib p1 _ 0 env0).1 hs
  rw [Nat.zero_add] at hs2
  set i := p1.length with hi
  set env1 := values lib p1 0 env0 with henv1
  have hs3 : Sound lib p2 (i + 1) (Function.update env1 i v) := hs2
  set ns2 := nodes lib p2 (i + 1) (Function.update env1 i v) with hns2
  set D := tangents ns2 (i + 1) (fun k => if k = i then 1 else 0) with hD
  have hnodes : nodes lib (p1 ++ .leaf v :: p2) 0 env0 = nodes lib p1 0 env0 ++ ([] :: ns2) := by
    rw [nodes_append, Nat.zero_add]
    rfl
  have hlow : ∀ k, k ≤ i → D k = if k = i then 1 else 0 := fun k hk => tangents_below _ _ _ _ (by omega)
  refine ⟨D, ⟨?_, ?_, ?_, ?_⟩, ?_, fun k h1 h2 => by omega⟩
  · intro k nd hk hki
    rw [hnodes] at hk
    by_cases hlt : k < i
    · rw [List.getElem?_append_left (by rw [nodes_length]; exact hlt)] at hk
      have hb := nodes_back lib p1 0 env0 hs1 k nd hk
      rw [hlow k (by omega), if_neg hki]
      have : tangent D nd = tangent (fun _ => 0) nd := tangent_congr (fun a ha => by
        have := hb a ha
        rw [hlow a.1 (by omega), if_neg (by omega)])
      rw [this]
      simp [tangent]
    · rw [List.getElem?_append_right (by rw [nodes_length]; omega), nodes_length] at hk
      obtain ⟨t, ht⟩ : ∃ t, k = i + 1 + t := ⟨k - (i + 1), by omega⟩
      subst ht
      rw [show i + 1 + t - p1.length = t + 1 by omega, List.getElem?_cons_succ] at hk
      exact tangents_rule ns2 (i + 1) _ (nodes_back lib p2 (i + 1) _ hs3) t nd hk
  · rw [hnodes, List.getElem?_append_right (by rw [nodes_length]), nodes_length]
    simp [hi]
  · rw [hlow i (Nat.le_refl _), if_pos rfl]
  · intro k nd hk a ha
    have := nodes_back lib _ 0 env0 hs k nd hk a ha
    omega
  · intro j
    have h := program_deriv lib v p2 (i + 1) (fun r => Function.update env1 i r) (fun k => if k = i then 1 else 0) (fun j => by
      by_cases hj : j = i
      · subst hj
        simp only [Function.update_self, if_true]
        exact hasDerivAt_id v
      · simp only [Function.update_of_ne hj, if_neg hj]
        exact hasDerivAt_const v _) hs3 j
    have hv : ∀ r, values lib (p1 ++ .leaf r :: p2) 0 env0 j = values lib p2 (i + 1) (Function.update env1 i r) j := by
      intro r
      rw [values_append, Nat.zero_add]
      rfl
    simp only [hv]
    exact h

/-! ### Backwards -/

/-- The derivatives below a position, and the one of the input. -/
def Adj.weight (D : Nat → ℝ) (i j k : Nat) : ℝ := if k < j ∨ k = i then D k else 0

/-- A weighted sum of adjoints. -/
noncomputable def Adj.total (N : Nat) (w adj : Nat → ℝ) : ℝ := ∑ k ∈ Finset.range N, adj k * w k

theorem Adj.total_update (N : Nat) (w adj : Nat → ℝ) (j : Nat) (c : ℝ) (hj : j < N) :
    total N w (Function.update adj j (adj j + c)) = total N w adj + c * w j := by
  unfold total
  rw [← Finset.add_sum_erase _ _ (Finset.mem_range.2 hj), ← Finset.add_sum_erase (Finset.range N) (fun k => adj k * w k) (Finset.mem_range.2 hj),
    Function.update_self]
  have : ∑ x ∈ (Finset.range N).erase j, Function.update adj j (adj j + c) x * w x = ∑ x ∈ (Finset.range N).erase j, adj x * w x :=
    Finset.sum_congr rfl (fun x hx => by rw [Function.update_of_ne (Finset.ne_of_mem_erase hx)])
  rw [this]
  ring

theorem Adj.total_spread (N : Nat) (w : Nat → ℝ) (i : Nat) : ∀ (nd : Node) (adj : Nat → ℝ), (∀ a ∈ nd, a.1 < i) → i < N →
    total N w (spread i nd adj) = total N w adj + adj i * (nd.map fun a => a.2 * w a.1).sum ∧ ∀ k, i ≤ k → spread i nd adj k = adj k := by
  intro nd
  induction nd with
  | nil => intro adj _ _; simp [spread]
  | cons a r ih =>
    obtain ⟨j, d⟩ := a
    intro adj h hi
    have hj : j < i := h (j, d) (List.mem_cons_self ..)
    obtain ⟨h1, h2⟩ := ih (Function.update adj j (adj j + adj i * d)) (fun a ha => h a (List.mem_cons_of_mem _ ha)) hi
    rw [spread]
    refine ⟨?_, ?_⟩
    · rw [h1, total_update N w adj j _ (by omega), Function.update_of_ne (by omega)]
      simp only [List.map_cons, List.sum_cons]
      ring
    · intro k hk
      rw [h2 k hk, Function.update_of_ne (by omega)]

theorem Adj.total_weight_succ {N i s : Nat} (D adj : Nat → ℝ) (hs : s < N) (hne : s ≠ i) :
    total N (weight D i (s + 1)) adj = total N (weight D i s) adj + adj s * D s := by
  unfold total
  rw [← Finset.add_sum_erase _ _ (Finset.mem_range.2 hs),
    ← Finset.add_sum_erase (Finset.range N) (fun k => adj k * weight D i s k) (Finset.mem_range.2 hs)]
  have h1 : weight D i (s + 1) s = D s := by unfold weight; rw [if_pos (Or.inl (by omega))]
  have h2 : weight D i s s = 0 := by unfold weight; rw [if_neg (by omega)]
  have h3 : ∑ x ∈ (Finset.range N).erase s, adj x * weight D i (s + 1) x = ∑ x ∈ (Finset.range N).erase s, adj x * weight D i s x :=
    Finset.sum_congr rfl (fun x hx => by
      have hx := Finset.ne_of_mem_erase hx
      unfold weight
      by_cases hc : x < s ∨ x = i
      · rw [if_pos hc, if_pos (by omega)]
      · rw [if_neg hc, if_neg (by omega)])
  rw [h1, h2, h3]
  ring

theorem Adj.one_step {eps : ℝ} (heps : 0 ≤ eps) {tape : List Node} {D : Nat → ℝ} {i : Nat} (hl : Lin tape D i) {s : Nat} {nd : Node}
    (hs : tape[s]? = some nd) (adj : Nat → ℝ) :
    |total tape.length (weight D i s) (propagateOne eps s nd adj) - total tape.length (weight D i (s + 1)) adj| ≤ eps * |D s| := by
  have hlt : s < tape.length := (List.getElem?_eq_some_iff.1 hs).1
  have hnn : 0 ≤ eps * |D s| := mul_nonneg heps (abs_nonneg _)
  by_cases hsi : s = i
  · have hnd : nd = [] := by
      rw [hsi, hl.leaf] at hs
      exact (Option.some.inj hs).symm
    have hw : weight D i (s + 1) = weight D i s := by
      funext k
      unfold weight
      by_cases hc : k < s ∨ k = i
      · rw [if_pos hc, if_pos (by omega)]
      · rw [if_neg hc, if_neg (by omega)]
    unfold propagateOne
    rw [if_pos (Or.inl hnd), hw, sub_self, abs_zero]
    exact hnn
  · rw [total_weight_succ D adj hlt hsi]
    unfold propagateOne
    by_cases hskip : nd = [] ∨ |adj s| ≤ eps
    · rw [if_pos hskip]
      rw [show total tape.length (weight D i s) adj - (total tape.length (weight D i s) adj + adj s * D s) = -(adj s * D s) by ring, abs_neg,
        abs_mul]
      rcases hskip with h | h
      · have hD : D s = 0 := by rw [hl.rule s nd hs hsi, h]; simp [tangent]
        rw [hD, abs_zero, mul_zero, mul_zero]
      · exact mul_le_mul_of_nonneg_right h (abs_nonneg _)
    · rw [if_neg hskip, (total_spread tape.length (weight D i s) s nd adj (hl.back s nd hs) hlt).1]
      have ht : (nd.map fun a => a.2 * weight D i s a.1).sum = D s := by
        rw [hl.rule s nd hs hsi]
        unfold tangent
        congr 1
        exact List.map_congr_left (fun a ha => by
          unfold weight
          rw [if_pos (Or.inl (hl.back s nd hs a ha))])
      rw [ht, sub_self, abs_zero]
      exact hnn

theorem Adj.down_ok {eps : ℝ} (heps : 0 ≤ eps) {tape : List Node} {D : Nat → ℝ} {i : Nat} (hl : Lin tape D i) : ∀ (count s : Nat)
    (adj : Nat → ℝ), s < tape.length → count ≤ s → ∃ adj', down eps tape count s adj = some adj' ∧
      |total tape.length (weight D i (s - count)) adj' - total tape.length (weight D i (s + 1)) adj|
        ≤ eps * ∑ k ∈ Finset.Ico (s - count) (s + 1), |D k| := by
  intro count
  induction count with
  | zero =>
    intro s adj hs _
    rw [down]
    have hg := List.getElem?_eq_getElem hs
    rw [hg]
    refine ⟨_, rfl, ?_⟩
    have := one_step heps hl hg adj
    simpa using this
  | succ count ih =>
    intro s adj hs hc
    obtain ⟨s, rfl⟩ : ∃ t, s = t + 1 := ⟨s - 1, by omega⟩
    rw [down]
    have hg := List.getElem?_eq_getElem hs
    rw [hg]
    dsimp only
    obtain ⟨adj', h1, h2⟩ := ih s (propagateOne eps (s + 1) tape[s + 1] adj) (by omega) (by omega)
    refine ⟨adj', h1, ?_⟩
    have h3 := one_step heps hl hg adj
    rw [show s + 1 - (count + 1) = s - count by omega, Finset.sum_Ico_succ_top (by omega), mul_add]
    have h4 : total tape.length (weight D i (s - count)) adj' - total tape.length (weight D i (s + 1 + 1)) adj
        = (total tape.length (weight D i (s - count)) adj' - total tape.length (weight D i (s + 1)) (propagateOne eps (s + 1) tape[s + 1] adj))
          + (total tape.length (weight D i (s + 1)) (propagateOne eps (s + 1) tape[s + 1] adj) - total tape.length (weight D i (s + 1 + 1)) adj) := by
      ring
    rw [h4]
    exact (abs_add_le _ _).trans (add_le_add h2 h3)

theorem Adj.total_one {N i : Nat} (D : Nat → ℝ) (adj : Nat → ℝ) (hi : i < N) (h1 : D i = 1) : total N (weight D i 0) adj = adj i := by
  unfold total
  rw [Finset.sum_eq_single i]
  · unfold weight
    rw [if_pos (Or.inr rfl), h1, mul_one]
  · intro b _ hb
    unfold weight
    rw [if_neg (by omega), mul_zero]
  · intro h
    exact absurd (Finset.mem_range.2 hi) h

theorem Adj.total_single {N i r : Nat} (D : Nat → ℝ) (hr : r < N) :
    total N (weight D i (r + 1)) (Function.update (fun _ => 0) r 1) = D r := by
  unfold total
  rw [Finset.sum_eq_single r]
  · unfold weight
    rw [if_pos (Or.inl (by omega)), Function.update_self, one_mul]
  · intro b _ hb
    rw [Function.update_of_ne hb, zero_mul]
  · intro h
    exact absurd (Finset.mem_range.2 hr) h

/-- The derivative of the number at position `k` of a program in its input at position `i`, at the value `v`. -/
noncomputable def partialDeriv (lib : Lib) (p : List Stmt) (env0 : Nat → ℝ) (i : Nat) (v : ℝ) (k : Nat) : ℝ :=
  deriv (fun r => values lib (setInput p i r) 0 env0 k) v

private theorem setInput_split {p1 p2 : List Stmt} {v r : ℝ} : setInput (p1 ++ .leaf v :: p2) p1.length r = p1 ++ .leaf r :: p2 := by
  unfold setInput
  rw [List.set_append]
  simp

private theorem split_at {p : List Stmt} {i : Nat} {v : ℝ} (h : p[i]? = some (.leaf v)) :
    ∃ p1 p2, p = p1 ++ .leaf v :: p2 ∧ p1.length = i := by
  obtain ⟨hlt, he⟩ := List.getElem?_eq_some_iff.1 h
  refine ⟨p.take i, p.drop (i + 1), ?_, by simp; omega⟩
  rw [← he, List.getElem_cons_drop, List.take_append_drop]

theorem Adj.program_lin' (lib : Lib) {p : List Stmt} {env0 : Nat → ℝ} (hs : Sound lib p 0 env0) {i : Nat} {v : ℝ}
    (hi : p[i]? = some (.leaf v)) : Lin (nodes lib p 0 env0) (partialDeriv lib p env0 i v) i ∧
      ∀ j, DifferentiableAt ℝ (fun r => values lib (setInput p i r) 0 env0 j) v := by
  obtain ⟨p1, p2, rfl, rfl⟩ := split_at hi
  obtain ⟨D, h1, h2, _⟩ := program_lin lib p1 p2 v env0 hs
  have hD : partialDeriv lib (p1 ++ .leaf v :: p2) env0 p1.length v = D := by
    funext j
    unfold partialDeriv
    simp only [setInput_split]
    exact (h2 j).deriv
  rw [hD]
  refine ⟨h1, fun j => ?_⟩
  simp only [setInput_split]
  exact (h2 j).differentiableAt

/-- C43: for every program of expressions on numbers recorded before, evaluated at regular points, for every number `r` of it and every
input `i`: the result is differentiable in the input, propagation from `r` to the start succeeds, and the adjoint of the input is the
partial derivative, up to what the cutoff `eps` of small adjoints leaves out. -/
theorem C43_gradient (lib : Lib) (eps : ℝ) (heps : 0 ≤ eps) (p : List Stmt) (env0 : Nat → ℝ) (hs : Sound lib p 0 env0) (i r : Nat) (v : ℝ)
    (hi : p[i]? = some (.leaf v)) (hr : r < p.length) :
    DifferentiableAt ℝ (fun x => values lib (setInput p i x) 0 env0 r) v ∧
    ∃ adj, propagateFrom eps (nodes lib p 0 env0) r 0 (fun _ => 0) = some adj ∧
      |adj i - partialDeriv lib p env0 i v r| ≤ eps * ∑ k ∈ Finset.range (r + 1), |partialDeriv lib p env0 i v k| := by
  obtain ⟨hl, hd⟩ := program_lin' lib hs hi
  refine ⟨hd r, ?_⟩
  have hlen := nodes_length lib p 0 env0
  obtain ⟨adj, h1, h2⟩ := down_ok heps hl r r (Function.update (fun _ => 0) r 1) (by omega) (Nat.le_refl _)
  refine ⟨adj, ?_, ?_⟩
  · unfold propagateFrom propagate
    rw [if_neg (by omega), Nat.sub_zero, h1]
  · have hi' : i < p.length := (List.getElem?_eq_some_iff.1 hi).1
    rw [Nat.sub_self, total_one _ _ (by omega) hl.one, total_single _ (by omega), ← Finset.range_eq_Ico] at h2
    exact h2

/-- C43: with no cutoff the adjoint is exactly the partial derivative. -/
theorem C43_gradient_exact (lib : Lib) (p : List Stmt) (env0 : Nat → ℝ) (hs : Sound lib p 0 env0) (i r : Nat) (v : ℝ)
    (hi : p[i]? = some (.leaf v)) (hr : r < p.length) :
    ∃ adj, propagateFrom 0 (nodes lib p 0 env0) r 0 (fun _ => 0) = some adj ∧
      HasDerivAt (fun x => values lib (setInput p i x) 0 env0 r) (adj i) v := by
  obtain ⟨hd, adj, h1, h2⟩ := C43_gradient lib 0 (le_refl _) p env0 hs i r v hi hr
  refine ⟨adj, h1, ?_⟩
  rw [zero_mul] at h2
  have : adj i = partialDeriv lib p env0 i v r := by
    have := abs_nonpos_iff.1 h2
    linarith
  rw [this]
  exact hd.hasDerivAt

/-! ### Many paths from one mark -/

theorem Adj.weight_total_low {N m i : Nat} (D adj : Nat → ℝ) (hm : m ≤ N) (hi : i < m) :
    total N (weight D i m) adj = ∑ k ∈ Finset.range m, adj k * D k := by
  unfold total
  rw [← Finset.sum_subset (Finset.range_subset_range.2 hm) (f := fun k => adj k * weight D i m k)]
  · apply Finset.sum_congr rfl
    intro k hk
    unfold weight
    rw [if_pos (Or.inl (Finset.mem_range.1 hk))]
  · intro k _ hk
    have := Finset.mem_range.not.1 hk
    unfold weight
    rw [if_neg (by omega), mul_zero]

theorem Adj.total_start {N m i r : Nat} (D adj : Nat → ℝ) (hr : r < N) (hmr : m ≤ r) (hi : i < m) :
    total N (weight D i (r + 1)) (Function.update (fun k => if k < m then adj k else 0) r 1)
      = ∑ k ∈ Finset.range m, adj k * D k + D r := by
  have h1 : total N (weight D i (r + 1)) (Function.update (fun k => if k < m then adj k else 0) r 1)
      = total N (weight D i (r + 1)) (fun k => if k < m then adj k else 0) + 1 * weight D i (r + 1) r := by
    have := total_update N (weight D i (r + 1)) (fun k => if k < m then adj k else 0) r 1 hr
    rwa [if_neg (by omega), zero_add] at this
  rw [h1]
  have h2 : weight D i (r + 1) r = D r := by unfold weight; rw [if_pos (Or.inl (by omega))]
  rw [h2, one_mul]
  congr 1
  unfold total
  rw [← Finset.sum_subset (Finset.range_subset_range.2 (show m ≤ N by omega))
    (f := fun k => (if k < m then adj k else 0) * weight D i (r + 1) k)]
  · apply Finset.sum_congr rfl
    intro k hk
    have hk := Finset.mem_range.1 hk
    unfold weight
    rw [if_pos hk, if_pos (Or.inl (by omega))]
  · intro k _ hk
    have := Finset.mem_range.not.1 hk
    rw [if_neg (by omega), zero_mul]

/-- What the cutoff can leave out of one path. -/
noncomputable def pathSlack (lib : Lib) (b : List Stmt) (env0 : Nat → ℝ) (i : Nat) (v : ℝ) (q : List Stmt × Nat) : ℝ :=
  ∑ k ∈ Finset.Ico b.length (q.2 + 1), |partialDeriv lib (b ++ q.1) env0 i v k|

/-- C43: recording a base, marking, then for each path rewinding to the mark, recording the path and propagating its result to the
mark, and in the end propagating from the mark to the start, leaves in each input of the base the sum over the paths of the partial
derivatives of their results, up to what the cutoff leaves out. -/
theorem C43_paths_accumulate (lib : Lib) (eps : ℝ) (heps : 0 ≤ eps) (b : List Stmt) (env0 : Nat → ℝ) (i : Nat) (v : ℝ)
    (hi : b[i]? = some (.leaf v)) (ps : List (List Stmt × Nat)) (hb : Sound lib b 0 env0)
    (hps : ∀ q ∈ ps, Sound lib q.1 b.length (values lib b 0 env0) ∧ b.length ≤ q.2 ∧ q.2 < b.length + q.1.length) :
    ∃ adj, simulate lib eps (nodes lib b 0 env0) (values lib b 0 env0) ps = some adj ∧
      |adj i - (ps.map fun q => partialDeriv lib (b ++ q.1) env0 i v q.2).sum|
        ≤ eps * ((ps.map (pathSlack lib b env0 i v)).sum + ∑ k ∈ Finset.range b.length, |partialDeriv lib b env0 i v k|) := by
  have hi' : i < b.length := (List.getElem?_eq_some_iff.1 hi).1
  have hlen := nodes_length lib b 0 env0
  -- derivatives of the base do not depend on the path
  have hbase : ∀ q ∈ ps, ∀ k, k < b.length → partialDeriv lib (b ++ q.1) env0 i v k = partialDeriv lib b env0 i v k := by
    intro q hq k hk
    unfold partialDeriv
    congr 1
    funext x
    have h1 : setInput (b ++ q.1) i x = setInput b i x ++ q.1 := by
      unfold setInput
      rw [List.set_append, if_pos hi']
    have h2 : ∀ (p : List Stmt) (n : Nat) (env : Nat → ℝ), k < n → values lib p n env k = env k := by
      intro p
      induction p with
      | nil => intro n env _; rfl
      | cons s p ih => intro n env hn; rw [values, ih (n + 1) _ (by omega), Function.update_of_ne (by omega)]
    rw [h1, values_append, h2 _ _ _ (by unfold setInput; rw [List.length_set]; omega)]
  have hpath : ∀ (qs : List (List Stmt × Nat)), (∀ q ∈ qs, q ∈ ps) → ∀ adj : Nat → ℝ, ∃ adj',
      paths lib eps (nodes lib b 0 env0) (values lib b 0 env0) qs adj = some adj' ∧
      |∑ k ∈ Finset.range b.length, adj' k * partialDeriv lib b env0 i v k
        - (∑ k ∈ Finset.range b.length, adj k * partialDeriv lib b env0 i v k + (qs.map fun q => partialDeriv lib (b ++ q.1) env0 i v q.2).sum)|
        ≤ eps * (qs.map (pathSlack lib b env0 i v)).sum := by
    intro qs
    induction qs with
    | nil => intro _ adj; exact ⟨adj, rfl, by simp⟩
    | cons q qs ih =>
      intro hq adj
      have hqm := hq q (List.mem_cons_self ..)
      obtain ⟨s1, s2, s3⟩ := hps q hqm
      have hs : Sound lib (b ++ q.1) 0 env0 := (sound_append lib b q.1 0 env0).2 ⟨hb, by rw [Nat.zero_add]; exact s1⟩
      have hq' : (b ++ q.1)[i]? = some (.leaf v) := by rw [List.getElem?_append_left hi']; exact hi
      obtain ⟨hl, _⟩ := program_lin' lib hs hq'
      have hn : nodes lib (b ++ q.1) 0 env0 = nodes lib b 0 env0 ++ nodes lib q.1 b.length (values lib b 0 env0) := by
        rw [nodes_append, Nat.zero_add]
      have hN : (nodes lib (b ++ q.1) 0 env0).length = b.length + q.1.length := by rw [nodes_length, List.length_append]
      obtain ⟨adj1, e1, e2⟩ := down_ok heps hl (q.2 - b.length) q.2 (Function.update (fun k => if k < b.length then adj k else 0) q.2 1)
        (by omega) (by omega)
      have hone : onePath lib eps (nodes lib b 0 env0) (values lib b 0 env0) q.1 q.2 adj = some adj1 := by
        unfold onePath propagateFrom propagate
        rw [hlen, if_neg (by omega), ← hn]
        exact e1
      rw [show q.2 - (q.2 - b.length) = b.length by omega, weight_total_low _ _ (by omega) hi', total_start _ _ (by omega) s2 hi'] at e2
      have hsum : ∀ a : Nat → ℝ, ∑ k ∈ Finset.range b.length, a k * partialDeriv lib (b ++ q.1) env0 i v k
          = ∑ k ∈ Finset.range b.length, a k * partialDeriv lib b env0 i v k := fun a =>
        Finset.sum_congr rfl (fun k hk => by rw [hbase q hqm k (Finset.mem_range.1 hk)])
      rw [hsum, hsum] at e2
      obtain ⟨adj2, e3, e4⟩ := ih (fun q' hq' => hq q' (List.mem_cons_of_mem _ hq')) adj1
      refine ⟨adj2, ?_, ?_⟩
      · obtain ⟨p, r⟩ := q
        rw [paths, hone]
        exact e3
      · rw [List.map_cons, List.sum_cons, List.map_cons, List.sum_cons, mul_add]
        have e2' : |∑ k ∈ Finset.range b.length, adj1 k * partialDeriv lib b env0 i v k
          - (∑ k ∈ Finset.range b.length, adj k * partialDeriv lib b env0 i v k + partialDeriv lib (b ++ q.1) env0 i v q.2)|
          ≤ eps * pathSlack lib b env0 i v q := e2
        rw [abs_le] at e2' e4 ⊢
        constructor <;> linarith [e2'.1, e2'.2, e4.1, e4.2]
  obtain ⟨adj1, e1, e2⟩ := hpath ps (fun q hq => hq) (fun _ => 0)
  obtain ⟨hl, _⟩ := program_lin' lib hb hi
  obtain ⟨adj2, e3, e4⟩ := down_ok heps hl (b.length - 1) (b.length - 1) adj1 (by omega) (Nat.le_refl _)
  refine ⟨adj2, ?_, ?_⟩
  · unfold simulate
    rw [e1, Option.bind_some, hlen, if_neg (by omega)]
    unfold propagate
    rw [if_neg (by omega), Nat.sub_zero]
    exact e3
  · rw [Nat.sub_self, total_one _ _ (by omega) hl.one, show b.length - 1 + 1 = b.length by omega, hlen, weight_total_low _ _ (by omega) hi',
      ← Finset.range_eq_Ico] at e4
    simp only [zero_mul, Finset.sum_const_zero, zero_add] at e2
    rw [mul_add]
    rw [abs_le] at e2 e4 ⊢
    constructor <;> linarith [e2.1, e2.2, e4.1, e4.2]

/-! ### What is not so -/

/-- C43, not so: with the cutoff of the code a derivative can be lost altogether: `z = x * 1e15; y = z * 1e-15` has derivative 1, and the
adjoint left in `x` is 0. -/
theorem C43_cutoff_violated (lib : Lib) : ∃ (p : List Stmt) (adj : Nat → ℝ),
    p = [.leaf 1, .expr (.un .multD (10 ^ 15) (.num 0)), .expr (.un .multD (1 / 10 ^ 15) (.num 1))] ∧
    propagateFrom (2 / 10 ^ 14) (nodes lib p 0 (fun _ => 0)) 2 0 (fun _ => 0) = some adj ∧ adj 0 = 0 ∧
    ∀ x, values lib (setInput p 0 x) 0 (fun _ => 0) 2 = x := by
  refine ⟨_, fun k => if k = 2 then 1 else if k = 1 then 1 / 10 ^ 15 else 0, rfl, ?_, by norm_num, ?_⟩
  · simp only [nodes, Stmt.node, Stmt.value, Ex.push, Ex.value, UOp.der, propagateFrom, propagate]
    rw [if_neg (by omega)]
    simp only [Nat.sub_zero, down, List.getElem?_cons_succ, List.getElem?_cons_zero]
    congr 1
    have h2 : propagateOne (2 / 10 ^ 14) 2 [(1, 1 * (1 / 10 ^ 15))] (Function.update (fun _ => 0) 2 1)
        = fun k => if k = 2 then 1 else if k = 1 then 1 / 10 ^ 15 else 0 := by
      unfold propagateOne
      rw [if_neg (by simp; norm_num)]
      funext k
      simp only [spread, Function.update_apply]
      by_cases h1 : k = 1
      · subst h1; norm_num
      · by_cases h2 : k = 2
        · subst h2; norm_num
        · simp [h1, h2]
    rw [h2]
    unfold propagateOne
    have hle : |(1 / 10 ^ 15 : ℝ)| ≤ 2 / 10 ^ 14 := by
      rw [abs_of_nonneg (by positivity), div_le_div_iff₀ (by positivity) (by positivity)]
      norm_num
    dsimp only
    rw [if_pos (Or.inl rfl), if_pos (Or.inr (by simpa using hle))]
  · intro x
    simp [setInput, values, Stmt.value, Ex.value, UOp.eval, Function.update_apply]

/-- C43, not so: at a tie `max` of two numbers has both derivatives 0, while `max(x, x)` has derivative 1. -/
theorem C43_max_tie_violated (lib : Lib) (v : ℝ) : ∃ (p : List Stmt) (adj : Nat → ℝ),
    p = [.leaf v, .expr (.bin .max (.num 0) (.num 0))] ∧
    propagateFrom 0 (nodes lib p 0 (fun _ => 0)) 1 0 (fun _ => 0) = some adj ∧ adj 0 = 0 ∧
    ∀ x, values lib (setInput p 0 x) 0 (fun _ => 0) 1 = x := by
  refine ⟨_, Function.update (fun _ => 0) 1 1, rfl, ?_, by simp, ?_⟩
  · simp only [nodes, Stmt.node, Stmt.value, Ex.push, Ex.value, BOp.left, BOp.right, propagateFrom, propagate]
    rw [if_neg (by omega)]
    simp only [Nat.sub_zero, down, List.getElem?_cons_succ, List.getElem?_cons_zero]
    congr 1
    have h2 : propagateOne 0 (0 + 1) ([(0, 1 * if Function.update (fun _ => (0 : ℝ) : Nat → ℝ) 0 v 0 > Function.update (fun _ => (0 : ℝ) : Nat → ℝ) 0 v 0 then 1 else 0)] ++
        [(0, 1 * if Function.update (fun _ => (0 : ℝ) : Nat → ℝ) 0 v 0 > Function.update (fun _ => (0 : ℝ) : Nat → ℝ) 0 v 0 then 1 else 0)]) (Function.update (fun _ => 0) 1 1)
        = Function.update (fun _ => 0) 1 1 := by
      unfold propagateOne
      rw [if_neg (by simp)]
      simp [spread]
    refine (congrArg (propagateOne 0 0 []) h2).trans ?_
    unfold propagateOne
    rw [if_pos (Or.inl rfl)]
  · intro x
    simp [setInput, values, Stmt.value, Ex.value, BOp.eval, Function.update_apply]

/-- C43, not so: a result recorded before the mark, as one that no path changes, is not found on the way down to the mark: the
propagation leaves the tape. -/
theorem C43_result_before_mark_violated (eps : ℝ) (tape : List Node) (r m : Nat) (h : r < m) (adj : Nat → ℝ) :
    propagateFrom eps tape r m adj = none := by
  unfold propagateFrom propagate
  rw [if_pos h]

/-! ### The hypotheses hold -/

example (lib : Lib) : Sound lib [.leaf 3, .leaf 2, .expr (.bin .div (.un .exp 0 (.num 0)) (.num 1)), .expr (.bin .max (.num 2) (.un .log 0 (.num 1)))] 0
    (fun _ => 0) := by
  have h1 : Real.log 2 < 1 := by
    have := Real.log_lt_sub_one_of_pos (x := 2) (by norm_num) (by norm_num)
    linarith
  have h2 : (4 : ℝ) ≤ Real.exp 3 := by
    have := Real.add_one_le_exp (3 : ℝ)
    linarith
  simp only [Sound, Ex.Before, Ex.Regular, UOp.Regular, BOp.Regular, Ex.value, UOp.eval, BOp.eval, Function.update_apply]
  norm_num
  intro h
  linarith

end Dal
