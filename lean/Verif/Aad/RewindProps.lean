import Verif.Aad.RewindLemmas
import Verif.Numeric.NormalLemmas

/-!
# C120: derivatives from a tape that is rewound under its inputs (`examples/aad`)

Specification: Mathlib's derivatives of the function that the program computes; for the example, its formula as a function of five numbers.
-/

namespace Dal
open Dal.Adj

/-- What a program on some inputs computes: the number of its statement `r`. -/
noncomputable def computed (lib : Lib) (p : List Stmt) (r : Nat) (inputs : List ℝ) : ℝ := values lib p inputs.length (fun k => inputs.getD k 0) (inputs.length + r)

private theorem inputs_env (lib : Lib) (inputs : List ℝ) : values lib (inputs.map .leaf) 0 (fun _ => 0) = fun k => inputs.getD k 0 := by
  funext k
  rw [inputs_values]
  by_cases h : k < inputs.length
  · rw [if_pos (by omega), Nat.sub_zero]
  · rw [if_neg (by omega), List.getD_eq_getElem?_getD, List.getElem?_eq_none (by omega)]; rfl

private theorem computed_set (lib : Lib) (p : List Stmt) (r : Nat) (inputs : List ℝ) (i : Nat) (hi : i < inputs.length) (x : ℝ) :
    values lib (setInput (inputs.map .leaf ++ p) i x) 0 (fun _ => 0) (inputs.length + r) = computed lib p r (inputs.set i x) := by
  rw [setInput, List.set_append_left _ _ (by simpa using hi), ← List.map_set, values_after, inputs_env, computed, List.length_map, Nat.zero_add, List.length_set]

/-- C120: a program that records no more nodes than it has inputs, evaluated again and again on a tape that is rewound to its start each time: the value is that of the function computed; the function is
differentiable in each input; and the adjoint of the input over the number of rounds is the derivative, up to a multiple of the cutoff. `C120_rewind_violated` is a program with one node more. -/
theorem C120_rewind_partial (lib : Lib) (inputs : List ℝ) (p : List Stmt) (hs : Sound lib p inputs.length fun k => inputs.getD k 0) (hm : p.length ≤ inputs.length) (r : Nat) (hr : r < p.length)
    (rounds : Nat) (hn : 0 < rounds) :
    (∀ (i : Nat) (v : ℝ), inputs[i]? = some v → DifferentiableAt ℝ (fun x => computed lib p r (inputs.set i x)) v) ∧
    ∃ B : Nat → ℝ, ∀ eps, 0 ≤ eps → ∃ risks, rewindExample lib eps inputs p (inputs.length + r) rounds = some (computed lib p r inputs, risks) ∧ risks.length = inputs.length ∧
      ∀ (i : Nat) (v ρ : ℝ), inputs[i]? = some v → risks[i]? = some ρ → |ρ - deriv (fun x => computed lib p r (inputs.set i x)) v| ≤ eps * B i := by
  have hb := inputs_sound lib inputs 0 fun _ => 0
  have hs' : Sound lib p (inputs.map Stmt.leaf).length (values lib (inputs.map .leaf) 0 fun _ => 0) := by rw [inputs_env, List.length_map]; exact hs
  have hin : ∀ (i : Nat) (v : ℝ), inputs[i]? = some v → (inputs.map Stmt.leaf)[i]? = some (.leaf v) := fun i v h => by rw [List.getElem?_map, h]; rfl
  have hlen : ∀ (i : Nat) (v : ℝ), inputs[i]? = some v → i < inputs.length := fun i v h => (List.getElem?_eq_some_iff.1 h).1
  have hfun : ∀ i, i < inputs.length → (fun x => values lib (setInput (inputs.map .leaf ++ p) i x) 0 (fun _ => 0) (inputs.length + r)) = fun x => computed lib p r (inputs.set i x) := fun i hi =>
    funext fun x => computed_set lib p r inputs i hi x
  refine ⟨fun i v hi => ?_, ?_⟩
  · have hi' := hlen i v hi
    have := (program_lin' lib (sound_after lib _ p 0 _ hb (by rw [Nat.zero_add]; exact hs')) (i := i) (v := v) (by rw [List.getElem?_append_left (by simpa using hi')]; exact hin i v hi)).2 (inputs.length + r)
    rwa [hfun i hi'] at this
  · refine ⟨fun i => (((List.replicate rounds (p, inputs.length + r)).map (pathSlack lib (inputs.map .leaf) (fun _ => 0) i (inputs.getD i 0))).sum +
      ∑ k ∈ Finset.range (inputs.map Stmt.leaf).length, |partialDeriv lib (inputs.map .leaf) (fun _ => 0) i (inputs.getD i 0) k|) / rounds, fun eps he => ?_⟩
    obtain ⟨t', adj', h1, h2, h3⟩ := rounds_spec lib eps inputs.length p hm ⟨fun k => inputs.getD k 0, fun k => inputs.length + k⟩ hs (fun _ _ => rfl) r hr rounds 0
      (((Mem1.clear.leaves inputs.length).leaves inputs.length).leaves 1) (fun _ => 0) fun i _ =>
        leaves_adj 1 _ (leaves_adj _ _ (leaves_adj _ _ fun _ => rfl)) _
    refine ⟨(List.range inputs.length).map fun i => t'.adj (inputs.length + i) / rounds, ?_, by simp, fun i v ρ hi hρ => ?_⟩
    · rw [rewindExample, h1, Option.map_some, if_neg hn.ne']
      rfl
    · have hi' := hlen i v hi
      have hv : inputs.getD i 0 = v := by rw [List.getD_eq_getElem?_getD, hi]; rfl
      obtain ⟨adj, h4, h5⟩ := C43_paths_accumulate lib eps he (inputs.map .leaf) (fun _ => 0) i v (hin i v hi) (List.replicate rounds (p, inputs.length + r)) hb (by
        intro q hq
        rw [List.eq_of_mem_replicate hq]
        exact ⟨hs', by simp, by simp [hr]⟩)
      have hadj : adj = adj' := by
        rw [simulate, inputs_nodes, inputs_env, h2, Option.bind_some, List.length_replicate, if_neg (by omega), propagate, if_neg (by omega), Nat.sub_zero,
          down_leaves eps inputs.length _ _ _ (by omega) le_rfl] at h4
        exact (Option.some.inj h4).symm
      have hρ' : ρ = adj' i / rounds := by
        rw [List.getElem?_map, List.getElem?_range hi', Option.map_some, h3 i hi'] at hρ
        exact (Option.some.inj hρ).symm
      have hN : (0 : ℝ) < rounds := Nat.cast_pos.2 hn
      have hd : ((List.replicate rounds (p, inputs.length + r)).map fun q => partialDeriv lib (inputs.map .leaf ++ q.1) (fun _ => 0) i v q.2).sum =
          rounds * deriv (fun x => computed lib p r (inputs.set i x)) v := by
        rw [List.map_replicate, List.sum_replicate, nsmul_eq_mul, partialDeriv, hfun i hi']
      rw [hd, hadj] at h5
      dsimp only
      rw [hv, hρ', ← mul_div_assoc, le_div_iff₀ hN, ← abs_of_pos hN, ← abs_mul, abs_of_pos hN, sub_mul, div_mul_cancel₀ _ hN.ne', mul_comm _ (rounds : ℝ)]
      exact h5

/-- Without a cutoff the risks are the derivatives. -/
theorem C120_exact_partial (lib : Lib) (inputs : List ℝ) (p : List Stmt) (hs : Sound lib p inputs.length fun k => inputs.getD k 0) (hm : p.length ≤ inputs.length) (r : Nat) (hr : r < p.length)
    (rounds : Nat) (hn : 0 < rounds) :
    ∃ risks, rewindExample lib 0 inputs p (inputs.length + r) rounds = some (computed lib p r inputs, risks) ∧ risks.length = inputs.length ∧
      ∀ (i : Nat) (v ρ : ℝ), inputs[i]? = some v → risks[i]? = some ρ → HasDerivAt (fun x => computed lib p r (inputs.set i x)) ρ v := by
  obtain ⟨h1, B, h2⟩ := C120_rewind_partial lib inputs p hs hm r hr rounds hn
  obtain ⟨risks, h3, h4, h5⟩ := h2 0 le_rfl
  refine ⟨risks, h3, h4, fun i v ρ hi hρ => ?_⟩
  have h6 := h5 i v ρ hi hρ
  rw [zero_mul] at h6
  rw [sub_eq_zero.1 (abs_nonpos_iff.1 h6)]
  exact (h1 i v hi).hasDerivAt

/-- Twice the input, in two nodes, on one input: the second node is recorded over the input, so the adjoint reported is that of a node that points to itself, over the number of rounds. -/
theorem C120_rewind_violated (lib : Lib) (v : ℝ) (rounds : Nat) (hn : 0 < rounds) : ∃ ρ : ℝ,
    rewindExample lib 0 [v] [.leaf 0, .expr (.un .multD 2 (.num 0))] 2 rounds = some (v * 2, [ρ]) ∧ ρ = 3 / rounds ∧ ρ ≠ 2 ∧
    ∀ x, HasDerivAt (fun x => computed lib [.leaf 0, .expr (.un .multD 2 (.num 0))] 1 [x]) 2 x := by
  have hround : ∀ t : Mem1, ∃ t', rewindRound lib 0 [.leaf 0, .expr (.un .multD 2 (.num 0))] 1 2 ⟨fun k => [v].getD k 0, fun k => 1 + k⟩ t = some (v * 2, t') ∧ t'.adj 1 = 3 := by
    intro t
    refine ⟨_, rfl, ?_⟩
    simp [sweep, execAll, exec, Mem1.record, Mem1.rewind, Stmt.node, Stmt.value, Ex.push, Ex.value, UOp.der, propagateOne, spread]
    norm_num
  have hrounds : ∀ (k : Nat) (last : ℝ) (t : Mem1), ∃ t', rewindRounds lib 0 [.leaf 0, .expr (.un .multD 2 (.num 0))] 1 2 ⟨fun k => [v].getD k 0, fun k => 1 + k⟩ (k + 1) last t = some (v * 2, t') ∧ t'.adj 1 = 3 := by
    intro k
    induction k with
    | zero =>
      intro last t
      obtain ⟨t', h1, h2⟩ := hround t
      exact ⟨t', by rw [rewindRounds, h1]; rfl, h2⟩
    | succ k ih =>
      intro last t
      obtain ⟨t', h1, h2⟩ := hround t
      obtain ⟨t'', h3, h4⟩ := ih (v * 2) t'
      exact ⟨t'', by rw [rewindRounds, h1, Option.bind_some, h3], h4⟩
  obtain ⟨k, rfl⟩ := Nat.exists_eq_succ_of_ne_zero hn.ne'
  obtain ⟨t', h1, h2⟩ := hrounds k 0 (((Mem1.clear.leaves 1).leaves 1).leaves 1)
  refine ⟨_, ?_, rfl, ?_, fun x => ?_⟩
  · rw [rewindExample]
    dsimp only [List.length_singleton]
    rw [h1]
    simp [h2, List.range_succ]
  · intro h
    have hk : ((k + 1 : Nat) : ℝ) ≠ 0 := Nat.cast_ne_zero.2 (by omega)
    rw [div_eq_iff hk] at h
    have : (3 : Nat) = 2 * (k + 1) := by exact_mod_cast h
    omega
  · have : (fun x => computed lib [.leaf 0, .expr (.un .multD 2 (.num 0))] 1 [x]) = fun x => x * 2 := by
      funext x
      simp [computed, values, Stmt.value, Ex.value, UOp.eval]
    rw [this]
    simpa using (hasDerivAt_id x).mul_const 2

/-! ### The example -/

/-- The formula of `BlackTest`. -/
noncomputable def blackTest (erfc : ℝ → ℝ) (call : Bool) (fwd vol num strike expiry : ℝ) : ℝ :=
  let sd := vol * Real.sqrt expiry
  let dm := Real.log (fwd / strike) / sd - sd / 2
  let dp := dm + sd
  (if call then 1 else -1) * num * (fwd * erfc (-dp / 1.4142135623730951) - strike * erfc (-dm / 1.4142135623730951)) / 2

private theorem black_computed (lib : Lib) (call : Bool) (a b c d e : ℝ) : computed lib (blackProgram call) 4 [a, b, c, d, e] = blackTest lib.erfc call a b c d e := by
  simp only [computed, blackProgram, values, Stmt.value, Ex.value, UOp.eval, BOp.eval, blackTest]
  simp [Function.update]
  norm_num
  cases call <;> simp <;> ring_nf

/-- C120, the example: five inputs and five nodes. For a library whose `erfc` has the derivative that `OPErfc_` takes it to have, positive forward, volatility, strike and expiry: the value printed is that of
the formula, and the numbers printed under `dP/dFwd`, `dP/dVol`, `dP/dNum`, `dP/dK` and `dP/dT` are its derivatives (up to a multiple of the cutoff), for every number of rounds. -/
theorem C120_example (lib : Lib) (herf : ∀ x, HasDerivAt lib.erfc (-1.12837916709551 * Real.exp (-x * x)) x) (call : Bool) (fwd vol num strike expiry : ℝ) (hf : 0 < fwd) (hv : 0 < vol) (hk : 0 < strike)
    (hT : 0 < expiry) (rounds : Nat) (hn : 0 < rounds) :
    ∃ dF dV dN dK dT : ℝ, HasDerivAt (fun x => blackTest lib.erfc call x vol num strike expiry) dF fwd ∧ HasDerivAt (fun x => blackTest lib.erfc call fwd x num strike expiry) dV vol ∧
      HasDerivAt (fun x => blackTest lib.erfc call fwd vol x strike expiry) dN num ∧ HasDerivAt (fun x => blackTest lib.erfc call fwd vol num x expiry) dK strike ∧
      HasDerivAt (fun x => blackTest lib.erfc call fwd vol num strike x) dT expiry ∧
      rewindExample lib 0 [fwd, vol, num, strike, expiry] (blackProgram call) 9 rounds = some (blackTest lib.erfc call fwd vol num strike expiry, [dF, dV, dN, dK, dT]) ∧
      ∃ B : ℝ, ∀ eps, 0 ≤ eps → ∃ risks, rewindExample lib eps [fwd, vol, num, strike, expiry] (blackProgram call) 9 rounds = some (blackTest lib.erfc call fwd vol num strike expiry, risks) ∧
        List.Forall₂ (fun r d => |r - d| ≤ eps * B) risks [dF, dV, dN, dK, dT] := by
  have hs : Sound lib (blackProgram call) [fwd, vol, num, strike, expiry].length fun k => [fwd, vol, num, strike, expiry].getD k 0 := by
    have h2 : 0 < fwd / strike := div_pos hf hk
    simp [blackProgram, Sound, Ex.Before, Ex.Regular, UOp.Regular, BOp.Regular, Ex.value, UOp.eval, BOp.eval, Function.update]
    refine ⟨hT, ⟨⟨hk.ne', h2⟩, hv.ne', Real.sqrt_ne_zero'.2 hT⟩, ?_, ?_⟩
    · simpa using herf ((-(vol * √expiry) + (vol * √expiry * 0.5 - Real.log (fwd / strike) / (vol * √expiry))) / 1.4142135623730951)
    · simpa using herf ((vol * √expiry * 0.5 - Real.log (fwd / strike) / (vol * √expiry)) / 1.4142135623730951)
  obtain ⟨risks, h1, h2, h3⟩ := C120_exact_partial lib _ (blackProgram call) hs (by simp [blackProgram]) 4 (by simp [blackProgram]) rounds hn
  obtain ⟨-, B, h4⟩ := C120_rewind_partial lib _ (blackProgram call) hs (by simp [blackProgram]) 4 (by simp [blackProgram]) rounds hn
  obtain ⟨dF, dV, dN, dK, dT, rfl⟩ : ∃ a b c d e, risks = [a, b, c, d, e] := by
    match risks, h2 with
    | [a, b, c, d, e], _ => exact ⟨a, b, c, d, e, rfl⟩
  have e0 := h3 0 fwd dF rfl rfl
  have e1 := h3 1 vol dV rfl rfl
  have e2 := h3 2 num dN rfl rfl
  have e3 := h3 3 strike dK rfl rfl
  have e4 := h3 4 expiry dT rfl rfl
  simp only [List.set_cons_zero, List.set_cons_succ, black_computed] at e0 e1 e2 e3 e4
  rw [black_computed] at h1
  refine ⟨dF, dV, dN, dK, dT, e0, e1, e2, e3, e4, h1, max (B 0) (max (B 1) (max (B 2) (max (B 3) (B 4)))), fun eps he => ?_⟩
  obtain ⟨rs, h5, h6, h7⟩ := h4 eps he
  rw [black_computed] at h5
  refine ⟨rs, h5, ?_⟩
  obtain ⟨a, b, c, d, e, rfl⟩ : ∃ a b c d e, rs = [a, b, c, d, e] := by
    match rs, h6 with
    | [a, b, c, d, e], _ => exact ⟨a, b, c, d, e, rfl⟩
  have k0 := h7 0 fwd a rfl rfl
  have k1 := h7 1 vol b rfl rfl
  have k2 := h7 2 num c rfl rfl
  have k3 := h7 3 strike d rfl rfl
  have k4 := h7 4 expiry e rfl rfl
  simp only [List.set_cons_zero, List.set_cons_succ, black_computed, e0.deriv, e1.deriv, e2.deriv, e3.deriv, e4.deriv] at k0 k1 k2 k3 k4
  have hmul : ∀ x, x ≤ max (B 0) (max (B 1) (max (B 2) (max (B 3) (B 4)))) → eps * x ≤ eps * max (B 0) (max (B 1) (max (B 2) (max (B 3) (B 4)))) := fun x hx => mul_le_mul_of_nonneg_left hx he
  exact .cons (k0.trans (hmul _ (by simp))) (.cons (k1.trans (hmul _ (by simp))) (.cons (k2.trans (hmul _ (by simp))) (.cons (k3.trans (hmul _ (by simp))) (.cons (k4.trans (hmul _ (by simp))) .nil))))

/-- With `is_call` false `BlackTest` is minus the call, not the put: at the money, its value is negative. -/
theorem C120_put_violated (lib : Lib) (herf : ∀ x, HasDerivAt lib.erfc (-1.12837916709551 * Real.exp (-x * x)) x) (fwd vol num expiry : ℝ) (hf : 0 < fwd) (hv : 0 < vol) (hn : 0 < num) (hT : 0 < expiry) :
    (∀ strike, blackTest lib.erfc false fwd vol num strike expiry = -blackTest lib.erfc true fwd vol num strike expiry) ∧ blackTest lib.erfc false fwd vol num fwd expiry < 0 := by
  refine ⟨fun strike => by simp only [blackTest, Bool.false_eq_true, if_false, if_true]; ring, ?_⟩
  have hanti : StrictAnti lib.erfc := strictAnti_of_hasDerivAt_neg (fun x => herf x) fun x => by
    have := Real.exp_pos (-x * x)
    nlinarith
  have hsd : 0 < vol * Real.sqrt expiry := mul_pos hv (Real.sqrt_pos.2 hT)
  simp only [blackTest, Bool.false_eq_true, if_false]
  rw [div_self hf.ne', Real.log_one, zero_div]
  set sd := vol * Real.sqrt expiry
  have h := hanti (show -(0 - sd / 2 + sd) / 1.4142135623730951 < -(0 - sd / 2) / 1.4142135623730951 from div_lt_div_of_pos_right (by linarith) (by norm_num))
  have : 0 < num * fwd := mul_pos hn hf
  nlinarith

/-! ### Examples -/

/-- A function with the derivative that `OPErfc_` takes `erfc` to have. -/
private noncomputable def nearErfc (x : ℝ) : ℝ := 1.12837916709551 / (2 / √Real.pi) * Numeric.erfc x

private theorem near_deriv (x : ℝ) : HasDerivAt nearErfc (-1.12837916709551 * Real.exp (-x * x)) x := by
  have h := (Numeric.erfc_deriv x).const_mul (1.12837916709551 / (2 / √Real.pi))
  have hp : √Real.pi ≠ 0 := (Real.sqrt_pos.2 Real.pi_pos).ne'
  have e : 1.12837916709551 / (2 / √Real.pi) * -(2 / √Real.pi * Real.exp (-1 * x ^ 2)) = -1.12837916709551 * Real.exp (-x * x) := by
    rw [show -1 * x ^ 2 = -x * x by ring]
    field_simp
  rw [e] at h
  exact h

/-- The numbers of the example. -/
example : ∃ pv risks, rewindExample ⟨fun _ => 0, nearErfc⟩ 0 [1, 0.2, 1, 1.2, 3] (blackProgram true) 9 10000000 = some (pv, risks) ∧ risks.length = 5 ∧
    pv = blackTest nearErfc true 1 0.2 1 1.2 3 := by
  obtain ⟨dF, dV, dN, dK, dT, -, -, -, -, -, h, -⟩ := C120_example ⟨fun _ => 0, nearErfc⟩ near_deriv true 1 0.2 1 1.2 3 (by norm_num) (by norm_num) (by norm_num) (by norm_num) 10000000 (by norm_num)
  exact ⟨_, _, h, rfl, rfl⟩

/-- Twice the input in one node is right. -/
example (lib : Lib) : ∃ ρ, rewindExample lib 0 [5] [.expr (.un .multD 2 (.num 0))] 1 7 = some (10, [ρ]) := by
  obtain ⟨risks, h1, h2, -⟩ := C120_exact_partial lib [5] [.expr (.un .multD 2 (.num 0))] (by simp [Sound, Ex.Before, Ex.Regular, UOp.Regular]) le_rfl 0 (by simp) 7 (by norm_num)
  match risks, h2 with
  | [ρ], _ =>
    refine ⟨ρ, h1.trans ?_⟩
    simp [computed, values, Stmt.value, Ex.value, UOp.eval]
    norm_num

end Dal
