import Verif.Sim.TapePathLemmas
import Verif.Sim.DupireProps
import Verif.Sim.GreekProps
import Verif.Script.CompileHom

/-! # Lemmas on simulations on the tape -/

namespace Dal.TapeRun

open Dal.Adj Dal.Script Dal.Models Dal.TimeLine

theorem tans_at (i : Nat) (ns : List Node) : Back ns → ∀ (k : Nat) (nd : Node), ns[k]? = some nd → tans i ns k = if k = i then 1 else tangent (tans i ns) nd := by
  induction ns using List.reverseRecOn with
  | nil => intro _ k nd h; simp at h
  | append_singleton ns n ih =>
    intro hb k nd hk
    have hlt : k < ns.length + 1 := by have := (List.getElem?_eq_some_iff.1 hk).1; simpa using this
    have hcongr : tangent (tans i (ns ++ [n])) nd = tangent (tans i ns) nd := by
      refine tangent_congr fun a ha => ?_
      have := hb k nd hk a ha
      rw [tans_append, Function.update_of_ne (by omega)]
    rw [hcongr, tans_append]
    by_cases h : k < ns.length
    · rw [Function.update_of_ne (by omega)]
      refine ih (fun k' nd' hk' => hb k' nd' ?_) k nd ?_
      · rw [List.getElem?_append_left (List.getElem?_eq_some_iff.1 hk').1]; exact hk'
      · rwa [List.getElem?_append_left h] at hk
    · have hkn : k = ns.length := by omega
      subst hkn
      simp only [List.getElem?_concat_length, Option.some.injEq] at hk
      subst hk
      rw [Function.update_self]

/-- Derivatives in an input are what the propagation of adjoints needs. -/
theorem lin_of_back {i : Nat} {ns : List Node} (hb : Back ns) (hi : ns[i]? = some []) : Lin ns (tans i ns) i :=
  ⟨fun k nd hk hne => by rw [tans_at i ns hb k nd hk, if_neg hne], hi, by rw [tans_at i ns hb i [] hi, if_pos rfl], hb⟩

theorem leaves_nodes : ∀ (vs : List ℝ) (t : Tape), (t.leaves vs).nodes = t.nodes ++ vs.map fun _ => [] := by
  intro vs
  induction vs with
  | nil => intro t; simp [Tape.leaves]
  | cons v vs ih => intro t; rw [Tape.leaves, ih]; simp [Tape.leaf]

theorem empty_back : Back Tape.empty.nodes := fun k nd h => by simp [Tape.empty] at h

/-- The parameters with the derivatives in the input at position `i`: the spot, the volatility, the rate, the dividend yield. -/
noncomputable def bsDual (i : Nat) (b : BS ℝ) : BS Dual :=
  ⟨⟨b.spot, if i = 0 then 1 else 0⟩, ⟨b.rate, if i = 2 then 1 else 0⟩, ⟨b.div, if i = 3 then 1 else 0⟩, ⟨b.vol, if i = 1 then 1 else 0⟩⟩

theorem bsDual_values (i : Nat) (b : BS ℝ) : BS.values (bsDual i b) = b := rfl

theorem steps_get : ∀ (line : List ℝ), (steps line).length = line.length - 1 ∧ ∀ (k : Nat) dt, (steps line)[k]? = some dt → dt = line.getD (k + 1) 0 - line.getD k 0 := by
  intro line
  induction line with
  | nil => exact ⟨rfl, fun k dt h => by simp [steps] at h⟩
  | cons a r ih =>
    cases r with
    | nil => exact ⟨rfl, fun k dt h => by simp [steps] at h⟩
    | cons c r =>
      refine ⟨by rw [steps, List.length_cons, ih.1]; simp, ?_⟩
      intro k dt h
      cases k with
      | zero => simp only [steps, List.getElem?_cons_zero, Option.some.injEq] at h; rw [← h]; rfl
      | succ k => exact ih.2 k dt (by simpa [steps] using h)

/-- What the tape holds at the mark. -/
structure BaseOn (i : Nat) (b : BS ℝ) (line product : List ℝ) (bs : Base) : Prop where
  back : Back bs.tape.nodes
  pos : i < bs.tape.nodes.length
  leaf : bs.tape.nodes[i]? = some []
  low : 0 < bs.tape.nodes.length
  spot : bs.tape.dual i 0 = (bsDual i b).spot
  stepsLen : bs.steps.length = line.length - 1
  steps : ∀ (k : Nat) p, bs.steps[k]? = some p → p.1 < bs.tape.nodes.length ∧ p.2 < bs.tape.nodes.length ∧
    bs.tape.dual i p.1 = (bsDual i b).std (fun j => line.getD j 0) k ∧ bs.tape.dual i p.2 = (bsDual i b).drift (fun j => line.getD j 0) k
  nums : List.Forall₂ (NumOn i bs.tape (bsDual i b).rate) product bs.nums

theorem base_spec (lib : Lib) (i : Nat) (b : BS ℝ) (consts line product : List ℝ) (hi : i < 4 + consts.length) : BaseOn i b line product (base lib b consts line product) := by
  rw [base]
  have h0 := leaves_spec ([b.spot, b.vol, b.rate, b.div] ++ consts) Tape.empty
  have hn0 := leaves_nodes ([b.spot, b.vol, b.rate, b.div] ++ consts) Tape.empty
  set t0 := Tape.empty.leaves ([b.spot, b.vol, b.rate, b.div] ++ consts) with ht0
  obtain ⟨e0, hlen, hd⟩ := h0
  have hlen' : t0.nodes.length = 4 + consts.length := by rw [hlen]; simp [Tape.empty]; omega
  have hd' : ∀ k v, ([b.spot, b.vol, b.rate, b.div] ++ consts)[k]? = some v → t0.dual i k = ⟨v, if i = k then 1 else 0⟩ := by
    intro k v hk
    have := hd i k v hk
    rw [show Tape.empty.nodes.length + k = k by simp [Tape.empty]] at this
    rw [this]
    simp only [eq_comm]
  have d0 := hd' 0 b.spot rfl
  have d1 := hd' 1 b.vol rfl
  have d2 := hd' 2 b.rate rfl
  have d3 := hd' 3 b.div rfl
  have hmu := expr_made i lib t0 (.bin .sub (.num 2) (.num 3)) (by omega) ⟨show 2 < _ by omega, show 3 < _ by omega⟩
  set mu := t0.expr lib (.bin .sub (.num 2) (.num 3)) with hmudef
  have hM : mu.1.dual i mu.2 = (bsDual i b).rate - (bsDual i b).div := by
    rw [hmu.dual]
    have e2 := congrArg Dual.v d2
    have e3 := congrArg Dual.v d3
    have f2 := congrArg Dual.d d2
    have f3 := congrArg Dual.d d3
    refine Dual.ext ?_ ?_
    · show t0.env 2 - t0.env 3 = b.rate - b.div
      rw [show t0.env 2 = b.rate from e2, show t0.env 3 = b.div from e3]
    · show tangent (tans i t0.nodes) (Ex.push lib t0.env _ 1) = (if i = 2 then 1 else 0) - (if i = 3 then 1 else 0)
      simp only [Ex.push, tangent, BOp.left, BOp.right, List.cons_append, List.nil_append, List.map_cons, List.map_nil, List.sum_cons, List.sum_nil]
      rw [show tans i t0.nodes 2 = _ from f2, show tans i t0.nodes 3 = _ from f3]
      ring
  have hst := tSteps_spec lib i 1 mu.2 (steps line) mu.1 (by have := hmu.ext.le; omega) (by have := hmu.ext.le; omega) hmu.pos
  set st := tSteps lib 1 mu.2 (steps line) mu.1 with hstdef
  obtain ⟨e1, s1⟩ := hst
  rw [hmu.ext.dual i (show 1 < t0.nodes.length by omega), d1, hM] at s1
  have hnm := tNums_spec lib i 2 product st.1 (by have := (hmu.ext.trans e1).le; omega) (by have := (hmu.ext.trans e1).le; omega)
  set nm := tNums lib 2 product st.1 with hnmdef
  obtain ⟨e2, s2⟩ := hnm
  rw [(hmu.ext.trans e1).dual i (show 2 < t0.nodes.length by omega), d2] at s2
  have e3 := (leaves_spec (product.flatMap fun _ => [0, 1, 1, 1, 1]) nm.1).1
  set tl := nm.1.leaves (product.flatMap fun _ => [0, 1, 1, 1, 1]) with htl
  have eAll : Ext t0 tl := hmu.ext.trans (e1.trans (e2.trans e3))
  have hle := eAll.le
  have hsl : st.2.length = line.length - 1 := by rw [← s1.length_eq, (steps_get line).1]
  refine ⟨eAll.back (e0.back empty_back), by show i < tl.nodes.length; omega, ?_, by show 0 < tl.nodes.length; omega, ?_, hsl, ?_, ?_⟩
  · show tl.nodes[i]? = some []
    obtain ⟨r, hr⟩ := eAll.pre
    rw [← hr, List.getElem?_append_left (by omega), hn0]
    simp only [Tape.empty, List.nil_append, List.getElem?_map]
    rw [List.getElem?_eq_getElem (by simp; omega)]
    rfl
  · show tl.dual i 0 = _
    rw [eAll.dual i (by omega), d0]; rfl
  · intro k p hk
    have hk' : st.2[k]? = some p := hk
    obtain ⟨hkl, hke⟩ := List.getElem?_eq_some_iff.1 hk'
    have hkl' : k < (steps line).length := by rw [s1.length_eq]; exact hkl
    have hp := s1.get (i := k) hkl' hkl
    have hdt := (steps_get line).2 k _ (List.getElem?_eq_getElem hkl')
    have hp' : StepOn i tl ⟨b.vol, if i = 1 then 1 else 0⟩ ((bsDual i b).rate - (bsDual i b).div) (steps line)[k] p := by
      rw [← hke]; exact StepOn.ext hp (e2.trans e3)
    rw [hdt] at hp'
    exact ⟨hp'.pos1, hp'.pos2, hp'.std, hp'.drift⟩
  · exact s2.imp fun _ _ h => NumOn.ext h e3

/-- The samples of a path, for a product without today's date. -/
noncomputable def samples {T : Type} [Add T] [Sub T] [Mul T] [Num T] (B : BS T) (product : List ℝ) (gauss : Nat → ℝ) : List (Script.Sample T) :=
  (List.range product.length).map fun k => ⟨Num.exp (B.logAt (fun j => (0 :: product).getD j 0) gauss (k + 1)), B.numeraire (product.getD k 0)⟩

/-- The dates of a product: those after today, with today's before them or not. -/
def datesFrom : Bool → List ℝ → List ℝ
  | false, rest => rest
  | true, rest => 0 :: rest

/-- The samples of a path, with or without today's: today's spot is the parameter itself. -/
noncomputable def samplesFrom {T : Type} [Add T] [Sub T] [Mul T] [Num T] : Bool → BS T → List ℝ → (Nat → ℝ) → List (Script.Sample T)
  | false, B, rest, gauss => samples B rest gauss
  | true, B, rest, gauss => ⟨B.spot, B.numeraire 0⟩ :: samples B rest gauss

theorem scenario_any (lib : Lib) (i : Nat) (b : BS ℝ) (today : Bool) (product : List ℝ) (bs : Base) (hb : BaseOn i b (0 :: product) (datesFrom today product) bs) (gauss : Nat → ℝ) :
    Ext bs.tape (tScenario lib bs today gauss).1 ∧ (∀ sp ∈ (tScenario lib bs today gauss).2, SampleOn (tScenario lib bs today gauss).1 sp) ∧
      (∀ (k : Nat) sp, (tScenario lib bs today gauss).2[k]? = some sp → today = false ∨ k ≠ 0 → bs.tape.nodes.length ≤ sp.spot) ∧
      (tScenario lib bs today gauss).2.map (sampleDual i (tScenario lib bs today gauss).1) = samplesFrom today (bsDual i b) product gauss := by
  rw [tScenario]
  have hlog := expr_made i lib bs.tape (.un .log 0 (.num 0)) hb.pos hb.low
  dsimp only
  set a := bs.tape.expr lib (.un .log 0 (.num 0)) with ha
  have hL : a.1.dual i a.2 = (bsDual i b).logAt (fun j => (0 :: product).getD j 0) gauss 0 := by
    rw [hlog.dual]
    have e := congrArg Dual.v hb.spot
    have f := congrArg Dual.d hb.spot
    refine Dual.ext ?_ ?_
    · show Real.log (bs.tape.env 0) = Real.log b.spot
      rw [show bs.tape.env 0 = b.spot from e]
    · show tangent (tans i bs.tape.nodes) (Ex.push lib bs.tape.env _ 1) = (if i = 0 then 1 else 0) / b.spot
      simp only [Ex.push, Ex.value, tangent, UOp.der, List.map_cons, List.map_nil, List.sum_cons, List.sum_nil]
      rw [show tans i bs.tape.nodes 0 = _ from f, show bs.tape.env 0 = b.spot from e]
      show _ = (if i = 0 then (1 : ℝ) else 0) / b.spot
      simp only [bsDual]
      ring
  obtain ⟨e1, e2, e3⟩ := tPath_spec lib i bs.tape.nodes.length (bsDual i b) (fun j => (0 :: product).getD j 0) gauss bs.steps 0 a.2 a.1
    (lt_of_lt_of_le hb.pos hlog.ext.le) hlog.ext.le hlog.pos hL (by
      intro k p hk
      obtain ⟨q1, q2, q3, q4⟩ := hb.steps k p hk
      rw [Nat.zero_add]
      exact ⟨lt_of_lt_of_le q1 hlog.ext.le, lt_of_lt_of_le q2 hlog.ext.le, (hlog.ext.dual i q1).trans q3, (hlog.ext.dual i q2).trans q4⟩)
  set p := tPath lib gauss bs.steps 0 a.2 a.1 with hp
  have eAll := hlog.ext.trans e1
  have hl1 : p.2.length = product.length := by rw [e2, hb.stepsLen]; simp
  have body : ∀ ns : List Nat, List.Forall₂ (fun T n => NumOn i p.1 (bsDual i b).rate T n) product ns →
      (∀ sp ∈ (p.2.zip ns).map fun s => (⟨s.1, s.2⟩ : Script.Sample Nat), SampleOn p.1 sp ∧ bs.tape.nodes.length ≤ sp.spot) ∧
        ((p.2.zip ns).map fun s => (⟨s.1, s.2⟩ : Script.Sample Nat)).map (sampleDual i p.1) = samples (bsDual i b) product gauss := by
    intro ns hns
    have hl2 : ns.length = product.length := hns.length_eq.symm
    have key : ∀ (k : Nat) (hk : k < product.length), ∃ q n, (p.2.zip ns)[k]? = some (q, n) ∧ SpotOn bs.tape.nodes.length i p.1 ((bsDual i b).logAt (fun j => (0 :: product).getD j 0) gauss (k + 1)) q ∧
        NumOn i p.1 (bsDual i b).rate product[k] n := by
      intro k hk
      refine ⟨p.2[k], ns[k], ?_, ?_, ?_⟩
      · rw [List.getElem?_eq_getElem (by simp; omega), List.getElem_zip]
      · have := e3 k _ (List.getElem?_eq_getElem (by omega))
        rwa [Nat.zero_add] at this
      · exact hns.get hk (by omega)
    refine ⟨?_, ?_⟩
    · intro sp hsp
      obtain ⟨⟨q, n⟩, hqn, rfl⟩ := List.mem_map.1 hsp
      obtain ⟨k, hk, hke⟩ := List.mem_iff_getElem.1 hqn
      obtain ⟨q', n', h1, h2, h3⟩ := key k (by simp at hk; omega)
      rw [List.getElem?_eq_getElem hk, hke] at h1
      cases h1
      exact ⟨⟨h2.pos, h3.pos⟩, h2.low⟩
    · refine List.ext_getElem? fun k => ?_
      rw [samples]
      by_cases hk : k < product.length
      · obtain ⟨q', n', h1, h2, h3⟩ := key k hk
        rw [List.getElem?_map, List.getElem?_map, h1, List.getElem?_map, List.getElem?_range hk]
        show some (sampleDual i p.1 ⟨q', n'⟩) = some _
        have hg : product.getD k 0 = product[k] := by rw [List.getD_eq_getElem?_getD, List.getElem?_eq_getElem hk]; rfl
        dsimp only
        rw [sampleDual, h2.dual, h3.dual, hg]
        rfl
      · rw [List.getElem?_eq_none (by simp; omega), List.getElem?_eq_none (by simp; omega)]
  have hnums := hb.nums.imp fun _ _ h => NumOn.ext h eAll
  refine ⟨eAll, ?_⟩
  cases today with
  | false =>
    rw [if_neg (by decide)]
    obtain ⟨b1, b2⟩ := body bs.nums hnums
    exact ⟨fun sp h => (b1 sp h).1, fun k sp h _ => (b1 sp (List.mem_of_getElem? h)).2, b2⟩
  | true =>
    rw [if_pos rfl]
    change List.Forall₂ _ (0 :: product) bs.nums at hnums
    generalize bs.nums = nums at hnums
    cases hnums with
    | cons hn0 hns =>
      rename_i n0 ns
      obtain ⟨b1, b2⟩ := body ns hns
      rw [List.zip_cons_cons, List.map_cons]
      refine ⟨?_, ?_, ?_⟩
      · intro sp h
        rcases List.mem_cons.1 h with rfl | h
        · exact ⟨lt_of_lt_of_le hb.low eAll.le, hn0.pos⟩
        · exact (b1 sp h).1
      · intro k sp h hk
        obtain ⟨k, rfl⟩ := Nat.exists_eq_succ_of_ne_zero (hk.resolve_left (by decide))
        rw [List.getElem?_cons_succ] at h
        exact (b1 sp (List.mem_of_getElem? h)).2
      · rw [List.map_cons, b2, sampleDual]
        dsimp only
        rw [hn0.dual, eAll.dual i hb.low, hb.spot]
        rfl

theorem scenario_spec (lib : Lib) (i : Nat) (b : BS ℝ) (product : List ℝ) (bs : Base) (hb : BaseOn i b (0 :: product) product bs) (gauss : Nat → ℝ) :
    Ext bs.tape (tScenario lib bs false gauss).1 ∧ (∀ sp ∈ (tScenario lib bs false gauss).2, SampleOn (tScenario lib bs false gauss).1 sp ∧ bs.tape.nodes.length ≤ sp.spot) ∧
      (tScenario lib bs false gauss).2.map (sampleDual i (tScenario lib bs false gauss).1) = samples (bsDual i b) product gauss := by
  obtain ⟨h1, h2, h3, h4⟩ := scenario_any lib i b false product bs hb gauss
  exact ⟨h1, fun sp h => ⟨h2 sp h, (List.mem_iff_getElem?.1 h).elim fun k hk => h3 k sp hk (.inl rfl)⟩, h4⟩

/-! ### One path and all paths -/

theorem tInit_spec (i : Nat) (t : Tape) (vars : List ℝ) (hi : i < t.nodes.length) :
    Ext t (tInit t vars).1 ∧ (∀ k, t.nodes.length ≤ (tInit t vars).2 k ∧ (tInit t vars).2 k < (tInit t vars).1.nodes.length) ∧
      (fun k => (tInit t vars).1.dual i ((tInit t vars).2 k)) = fun k => Script.lift (vars.getD k 0) := by
  obtain ⟨h1, h2, h3⟩ := leaves_spec (vars ++ [0]) t
  refine ⟨h1, ?_, ?_⟩
  · intro k
    refine ⟨Nat.le_add_right _ _, ?_⟩
    show t.nodes.length + (if k < vars.length then k else vars.length) < (t.leaves (vars ++ [0])).nodes.length
    rw [h2, List.length_append]
    split
    · simp; omega
    · simp
  · funext k
    show (t.leaves (vars ++ [0])).dual i (t.nodes.length + if k < vars.length then k else vars.length) = _
    by_cases hk : k < vars.length
    · rw [if_pos hk, leaves_pos i t _ hi k (vars.getD k 0) ?_]
      rw [List.getElem?_append_left hk, List.getD_eq_getElem?_getD, List.getElem?_eq_getElem hk]; rfl
    · rw [if_neg hk, leaves_pos i t _ hi vars.length 0 (by simp)]
      rw [List.getD_eq_getElem?_getD, List.getElem?_eq_none (by omega)]; rfl

/-- The run of the code on the samples of a path. -/
noncomputable def runSamples {T : Type} [Num T] (o : Ops T) (fuel : Nat) (p : Product) (sps : List (Script.Sample T)) : Option (Nat → T) :=
  evaluateCompiled o fuel ((p.code.zip sps).map fun e => (⟨e.1.ns, e.1.cs.map Num.lit⟩, e.2)) fun k => Num.lit (p.vars.getD k 0)

theorem tEvaluate_spec (lib : Lib) (i fuel : Nat) (p : Product) (b : BS ℝ) (product : List ℝ) (bs : Base) (hb : BaseOn i b (0 :: product) product bs) (gauss : Nat → ℝ) :
    runSamples dualOps fuel p (samples (bsDual i b) product gauss) =
      (tEvaluate lib fuel p.vars (p.code.zip (tScenario lib bs false gauss).2) (tScenario lib bs false gauss).1).map (fun r => fun k => r.1.dual i (r.2 k)) ∧
    ∀ r, tEvaluate lib fuel p.vars (p.code.zip (tScenario lib bs false gauss).2) (tScenario lib bs false gauss).1 = some r →
      Ext bs.tape r.1 ∧ ∀ k, bs.tape.nodes.length ≤ r.2 k ∧ r.2 k < r.1.nodes.length := by
  obtain ⟨e1, s1, s2⟩ := scenario_spec lib i b product bs hb gauss
  set sc := tScenario lib bs false gauss with hsc
  obtain ⟨e2, q1, q2⟩ := tInit_spec i sc.1 p.vars (lt_of_lt_of_le hb.pos e1.le)
  have hmem : ∀ e ∈ p.code.zip sc.2, e.2 ∈ sc.2 := fun e he => (List.of_mem_zip (a := e.1) (b := e.2) he).2
  obtain ⟨r1, r2⟩ := tEvents_dual lib i bs.tape.nodes.length fuel (p.code.zip sc.2) (tInit sc.1 p.vars).1 (tInit sc.1 p.vars).2
    (lt_of_lt_of_le hb.pos (e1.trans e2).le) (e1.trans e2).le (fun k => ⟨e1.le.trans (q1 k).1, (q1 k).2⟩)
    (fun e he => ⟨(s1 e.2 (hmem e he)).1.ext e2, (s1 e.2 (hmem e he)).2⟩)
  refine ⟨?_, fun r hr => ⟨(e1.trans e2).trans (r2 r hr).1, (r2 r hr).2⟩⟩
  rw [q2] at r1
  rw [tEvaluate, ← r1, runSamples, ← s2]
  congr 1
  rw [List.zip_map_right, List.map_map]
  refine List.map_congr_left fun e he => ?_
  show _ = (_, sampleDual i (tInit sc.1 p.vars).1 e.2)
  rw [sampleDual_ext (s1 e.2 (hmem e he)).1 e2 i]
  rfl

theorem opsHom_v : OpsHom dualOps realOps Dual.v :=
  ⟨rfl, fun _ _ => rfl, fun _ _ => rfl, fun _ _ => rfl, fun _ _ => rfl, fun _ _ => rfl, fun a => (zero_sub a.v).symm, fun _ => rfl, fun _ => rfl, fun _ => rfl, fun _ _ => rfl, fun _ _ => rfl,
    fun _ _ => rfl⟩

/-- The values of a run with derivatives are those of the run with doubles. -/
theorem runSamples_v (i fuel : Nat) (p : Product) (b : BS ℝ) (product : List ℝ) (gauss : Nat → ℝ) :
    runSamples realOps fuel p (samples b product gauss) = (runSamples dualOps fuel p (samples (bsDual i b) product gauss)).map fun r => fun k => (r k).v := by
  rw [runSamples, runSamples, ← evaluateCompiled_hom opsHom_v, List.map_map]
  congr 1
  have hs : samples b product gauss = (samples (bsDual i b) product gauss).map (Sample.map Dual.v) := by
    rw [samples, samples, List.map_map]
    refine List.map_congr_left fun k _ => ?_
    show (⟨_, _⟩ : Script.Sample ℝ) = ⟨_, _⟩
    have h := (dual_log (bsDual i b) (fun j => (0 :: product).getD j 0) gauss (k + 1)).1
    rw [bsDual_values] at h
    congr 1
    show Real.exp _ = Real.exp _
    rw [h]
  rw [hs, List.zip_map_right, List.map_map]
  refine List.map_congr_left fun e _ => ?_
  show ((⟨e.1.ns, e.1.cs.map id⟩ : Streams ℝ), Sample.map Dual.v e.2) = (⟨e.1.ns, (e.1.cs.map Script.lift).map Dual.v⟩, Sample.map Dual.v e.2)
  rw [List.map_map]
  rfl

theorem tOne_spec (lib : Lib) (fuel : Nat) (p : Product) (b : BS ℝ) (product : List ℝ) (bs : Base) (n : Nat) (hn : 0 < n) (hb : ∀ i, i < n → BaseOn i b (0 :: product) product bs) (gauss : Nat → ℝ)
    (v : ℝ) (hv : (runSamples realOps fuel p (samples b product gauss)).map (· p.payoff) = some v) :
    ∃ d B : Nat → ℝ, (∀ i, i < n → (runSamples dualOps fuel p (samples (bsDual i b) product gauss)).map (· p.payoff) = some ⟨v, d i⟩) ∧
      ∀ eps, 0 ≤ eps → ∀ adj, ∃ adj', tOne lib eps fuel p bs false gauss adj = some (v, adj') ∧
        ∀ i, i < n → |∑ k ∈ Finset.range bs.tape.nodes.length, adj' k * tans i bs.tape.nodes k - (∑ k ∈ Finset.range bs.tape.nodes.length, adj k * tans i bs.tape.nodes k + d i)| ≤ eps * B i := by
  have hv0 := runSamples_v 0 fuel p b product gauss
  obtain ⟨h0, h0'⟩ := tEvaluate_spec lib 0 fuel p b product bs (hb 0 hn) gauss
  cases he : tEvaluate lib fuel p.vars (p.code.zip (tScenario lib bs false gauss).2) (tScenario lib bs false gauss).1 with
  | none => rw [hv0, h0, he] at hv; simp at hv
  | some r =>
    obtain ⟨t, σ⟩ := r
    obtain ⟨ext, hσ⟩ := h0' _ he
    dsimp only at ext hσ
    have hval : t.env (σ p.payoff) = v := by
      rw [hv0, h0, he] at hv
      exact Option.some.inj hv
    have hlin : ∀ i, i < n → Lin t.nodes (tans i t.nodes) i := by
      intro i hi
      refine lin_of_back (ext.back (hb i hi).back) ?_
      obtain ⟨q, hq⟩ := ext.pre
      rw [← hq, List.getElem?_append_left (hb i hi).pos, (hb i hi).leaf]
    refine ⟨fun i => tans i t.nodes (σ p.payoff), fun i => ∑ k ∈ Finset.Ico bs.tape.nodes.length (σ p.payoff + 1), |tans i t.nodes k|, ?_, ?_⟩
    · intro i hi
      rw [(tEvaluate_spec lib i fuel p b product bs (hb i hi) gauss).1, he, ← hval]
      rfl
    · intro eps heps adj
      have hm := hσ p.payoff
      have hdown := fun i hi => down_ok heps (hlin i hi) (σ p.payoff - bs.tape.nodes.length) (σ p.payoff)
        (Function.update (fun k => if k < bs.tape.nodes.length then adj k else 0) (σ p.payoff) 1) hm.2 (by omega)
      obtain ⟨adj', a1, -⟩ := hdown 0 hn
      refine ⟨adj', ?_, ?_⟩
      · rw [tOne]
        rw [he]
        dsimp only
        rw [propagateFrom, propagate, if_neg (by omega), a1]
        dsimp only
        rw [hval]
      · intro i hi
        obtain ⟨adj'', a2, a3⟩ := hdown i hi
        rw [a1] at a2
        cases a2
        rw [show σ p.payoff - (σ p.payoff - bs.tape.nodes.length) = bs.tape.nodes.length by omega, weight_total_low _ _ ext.le (hb i hi).pos, total_start _ _ hm.2 hm.1 (hb i hi).pos] at a3
        have hsum : ∀ a : Nat → ℝ, ∑ k ∈ Finset.range bs.tape.nodes.length, a k * tans i t.nodes k = ∑ k ∈ Finset.range bs.tape.nodes.length, a k * tans i bs.tape.nodes k := fun a =>
          Finset.sum_congr rfl fun k hk => by rw [ext.tan i k (Finset.mem_range.1 hk)]
        rw [hsum, hsum] at a3
        exact a3

theorem tPaths_spec (lib : Lib) (fuel : Nat) (p : Product) (b : BS ℝ) (product : List ℝ) (bs : Base) (n : Nat) (hn : 0 < n) (hb : ∀ i, i < n → BaseOn i b (0 :: product) product bs)
    (value : (Nat → ℝ) → ℝ) (deriv : Nat → (Nat → ℝ) → ℝ) : ∀ (gs : List (Nat → ℝ)),
    (∀ g ∈ gs, ∀ i, i < n → (runSamples dualOps fuel p (samples (bsDual i b) product g)).map (· p.payoff) = some ⟨value g, deriv i g⟩) →
    ∃ B : Nat → ℝ, ∀ eps, 0 ≤ eps → ∀ sum adj, ∃ adj', tPaths lib eps fuel p bs false gs sum adj = some (sum + (gs.map value).sum, adj') ∧
        ∀ i, i < n → |∑ k ∈ Finset.range bs.tape.nodes.length, adj' k * tans i bs.tape.nodes k -
          (∑ k ∈ Finset.range bs.tape.nodes.length, adj k * tans i bs.tape.nodes k + (gs.map (deriv i)).sum)| ≤ eps * B i := by
  intro gs
  induction gs with
  | nil => intro _; exact ⟨fun _ => 0, fun eps _ sum adj => ⟨adj, by simp [tPaths], fun i _ => by simp⟩⟩
  | cons g gs ih =>
    intro h
    obtain ⟨B1, hB1⟩ := ih fun g' hg' => h g' (List.mem_cons_of_mem _ hg')
    have hg := h g (List.mem_cons_self ..)
    have hv : (runSamples realOps fuel p (samples b product g)).map (· p.payoff) = some (value g) := by
      have h1 := runSamples_v 0 fuel p b product g
      have h2 := hg 0 hn
      cases hr : runSamples dualOps fuel p (samples (bsDual 0 b) product g) with
      | none => rw [hr] at h2; simp at h2
      | some r =>
        rw [hr] at h1 h2
        rw [h1]
        have := congrArg (Option.map Dual.v) h2
        simpa using this
    obtain ⟨d, B2, hd, hB2⟩ := tOne_spec lib fuel p b product bs n hn hb g (value g) hv
    refine ⟨fun i => B2 i + B1 i, fun eps heps sum adj => ?_⟩
    obtain ⟨adj1, o1, o2⟩ := hB2 eps heps adj
    obtain ⟨adj2, p1, p2⟩ := hB1 eps heps (sum + value g) adj1
    refine ⟨adj2, ?_, fun i hi => ?_⟩
    · rw [tPaths, o1]
      dsimp only
      rw [p1, List.map_cons, List.sum_cons, add_assoc]
    · have e1 := o2 i hi
      have e2 := p2 i hi
      have hdi : d i = deriv i g := by
        have := (hd i hi).symm.trans (hg i hi)
        simpa using this
      rw [hdi] at e1
      rw [List.map_cons, List.sum_cons, mul_add]
      rw [abs_le] at e1 e2 ⊢
      constructor <;> linarith [e1.1, e1.2, e2.1, e2.2]

end Dal.TapeRun
