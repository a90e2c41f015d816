import Verif.Sim.FuzzyTapeSimLemmas
import Verif.Script.CompileProps

/-! # Lemmas on compiled simulations of products with an event today: where the payoff lies on the tape -/

namespace Dal.TapeRun

open Dal.Adj Dal.Script Dal.Models

/-- No instruction copies a number to variable `k`; `PAYS` makes a new one. -/
def NoCopy (k : Nat) (ns : List Word) : Prop := ∀ j, ns[j]? = some (.op .assign) → argAt ns (j + 1) ≠ some k

private theorem tBin_grows (lib : Lib) {op : Op} {f : Tape → Nat → Nat → Tape × Nat} (h : tBin lib op = some f) (t : Tape) (a b : Nat) : t.nodes.length ≤ (f t a b).1.nodes.length := by
  cases op <;> simp only [tBin, Option.some.injEq, reduceCtorEq] at h <;> subst h <;> simp [Tape.expr]

private theorem tConst_grows (lib : Lib) {op : Op} {f : Tape → ℝ → Nat → Tape × Nat} (h : tConst lib op = some f) (t : Tape) (c : ℝ) (x : Nat) : t.nodes.length ≤ (f t c x).1.nodes.length := by
  cases op <;> simp only [tConst, Option.some.injEq, reduceCtorEq] at h <;> subst h <;> simp [Tape.expr, Tape.leaf]

private theorem tUn_grows (lib : Lib) {op : Op} {f : Tape → Nat → Tape × Nat} (h : tUn lib op = some f) (t : Tape) (x : Nat) : t.nodes.length ≤ (f t x).1.nodes.length := by
  cases op <;> simp only [tUn, Option.some.injEq, reduceCtorEq] at h <;> subst h <;> simp [Tape.expr]

private theorem upd_at {σ : Nat → Nat} {m k j p : Nat} (h : m ≤ σ k) (hp : j = k → m ≤ p) : m ≤ upd σ j p k := by
  simp only [upd]
  split
  · rename_i e; exact hp e.symm
  · exact h

theorem tstep_low (lib : Lib) (ns : List Word) (cs : List ℝ) (sp : Script.Sample Nat) (j : Nat) (op : Op) (t : Tape) (s : RunSt Nat) (k m : Nat) (hno : op = .assign → argAt ns (j + 1) ≠ some k)
    (hm : m ≤ t.nodes.length) (hk : m ≤ s.σ k) (r : Nat × Tape × RunSt Nat) (h : tstep lib ns cs sp j op t s = some r) : m ≤ r.2.1.nodes.length ∧ m ≤ r.2.2.σ k := by
  unfold tstep at h
  cases h1 : tBin lib op with
  | some f =>
    rw [h1] at h
    dsimp only at h
    split at h
    · injection h with h
      subst h
      exact ⟨hm.trans (tBin_grows lib h1 _ _ _), hk⟩
    · cases h
  | none =>
  rw [h1] at h
  dsimp only at h
  cases h2 : tConst lib op with
  | some f =>
    rw [h2] at h
    dsimp only at h
    split at h
    · injection h with h
      subst h
      exact ⟨hm.trans (tConst_grows lib h2 _ _ _), hk⟩
    · cases h
  | none =>
  rw [h2] at h
  dsimp only at h
  cases h3 : tUn lib op with
  | some f =>
    rw [h3] at h
    dsimp only at h
    split at h
    · injection h with h
      subst h
      exact ⟨hm.trans (tUn_grows lib h3 _ _), hk⟩
    · cases h
  | none =>
  rw [h3] at h
  dsimp only at h
  cases h4 : tCmp op with
  | some f =>
    rw [h4] at h
    dsimp only at h
    split at h
    · obtain ⟨b, -, rfl⟩ := Option.map_eq_some_iff.1 h
      exact ⟨hm, hk⟩
    · cases h
  | none =>
  rw [h4] at h
  dsimp only at h
  clear h1 h2 h3 h4
  split at h
  · injection h with h; subst h; exact ⟨hm, hk⟩
  · obtain ⟨a, -, rfl⟩ := Option.map_eq_some_iff.1 h; exact ⟨hm, hk⟩
  · obtain ⟨c, -, rfl⟩ := Option.map_eq_some_iff.1 h; exact ⟨hm.trans (by simp [Tape.leaf]), hk⟩
  · obtain ⟨c, -, rfl⟩ := Option.map_eq_some_iff.1 h; exact ⟨hm.trans (by simp [Tape.leaf]), hk⟩
  · split at h
    · rename_i x d a e1 e2
      injection h with h; subst h
      exact ⟨hm, upd_at hk fun e => absurd (e ▸ e2) (hno rfl)⟩
    · cases h
  · split at h
    · injection h with h; subst h
      exact ⟨hm.trans (by simp [Tape.leaf]), upd_at hk fun _ => hm⟩
    · cases h
  · split at h
    · injection h with h; subst h
      exact ⟨hm.trans (by simp [tPays, Tape.expr]), upd_at hk fun _ => hm⟩
    · cases h
  · split at h
    · injection h with h; subst h
      exact ⟨hm.trans (by simp [tPays, Tape.expr, Tape.leaf]), upd_at hk fun _ => hm.trans (by simp [tPays, Tape.expr, Tape.leaf])⟩
    · cases h
  · split at h
    · injection h with h; subst h; exact ⟨hm, hk⟩
    · obtain ⟨a, -, rfl⟩ := Option.map_eq_some_iff.1 h; exact ⟨hm, hk⟩
    · cases h
  · split at h
    · injection h with h; subst h; exact ⟨hm, hk⟩
    · cases h
  · split at h
    · injection h with h; subst h; exact ⟨hm, hk⟩
    · cases h
  · split at h
    · injection h with h; subst h; exact ⟨hm, hk⟩
    · cases h
  · obtain ⟨a, -, rfl⟩ := Option.map_eq_some_iff.1 h; exact ⟨hm, hk⟩
  · obtain ⟨a, -, rfl⟩ := Option.map_eq_some_iff.1 h; exact ⟨hm, hk⟩
  · cases h

theorem trun_low (lib : Lib) (ns : List Word) (cs : List ℝ) (sp : Script.Sample Nat) (k m : Nat) (hno : NoCopy k ns) : ∀ (fuel n j : Nat) (t : Tape) (s : RunSt Nat), m ≤ t.nodes.length → m ≤ s.σ k →
    ∀ r, trun lib ns cs sp fuel n j t s = some r → m ≤ r.1.nodes.length ∧ m ≤ r.2.σ k := by
  intro fuel
  induction fuel with
  | zero => intro n j t s _ _ r h; cases h
  | succ fuel ih =>
    intro n j t s hm hk r h
    rw [trun] at h
    split at h
    · split at h
      · rename_i a t' s' hact
        split at h
        · have h1 : m ≤ t'.nodes.length ∧ m ≤ s'.σ k := by
            unfold tact at hact
            split at hact
            · split at hact
              · obtain ⟨q, -, e⟩ := Option.map_eq_some_iff.1 hact
                injection e with e1 e2 e3
                subst e2 e3
                exact ⟨hm, hk⟩
              · split at hact
                · injection hact with e; cases e
                · cases hact
              · cases hact
            · rename_i op hw _
              obtain ⟨q, e0, e⟩ := Option.map_eq_some_iff.1 hact
              injection e with e1 e2 e3
              subst e2 e3
              exact tstep_low lib ns cs sp j _ t s k m (fun e => hno j (by first | exact e ▸ hw | (subst e; assumption))) hm hk q e0
            · cases hact
          exact ih _ _ _ _ h1.1 h1.2 r h
        · cases h
      · split at h
        · rename_i q hq
          have h1 := ih _ _ t ⟨[], {}, s.σ⟩ hm hk q hq
          exact ih _ _ q.1 { q.2 with b := q.2.b.pop } h1.1 h1.2 r h
        · cases h
      · cases h
    · injection h with h
      subst h
      exact ⟨hm, hk⟩

theorem tEvents_low (lib : Lib) (k m fuel : Nat) : ∀ (es : List (Streams ℝ × Script.Sample Nat)) (t : Tape) (σ : Nat → Nat), (∀ e ∈ es, NoCopy k e.1.ns) → m ≤ t.nodes.length → m ≤ σ k →
    ∀ r, tEvents lib fuel es t σ = some r → m ≤ r.2 k := by
  intro es
  induction es with
  | nil => intro t σ _ _ hk r h; injection h with h; subst h; exact hk
  | cons e es ih =>
    obtain ⟨s, sp⟩ := e
    intro t σ hno hm hk r h
    rw [tEvents] at h
    split at h
    · rename_i q hq
      have h1 := trun_low lib s.ns s.cs sp k m (hno _ List.mem_cons_self) _ _ _ _ _ hm hk q hq
      exact ih _ _ (fun e he => hno e (List.mem_cons_of_mem _ he)) h1.1 h1.2 r h
    · cases h

/-- A product whose payoff is made on the path: there is no event today, or no instruction copies a number to the payoff. -/
def Pays (today : Bool) (p : Product) : Prop := today = false ∨ ∀ c ∈ p.code, NoCopy p.payoff c.ns

theorem tEvaluate_from (lib : Lib) (i fuel : Nat) (p : Product) (b : BS ℝ) (today : Bool) (product : List ℝ) (bs : Base) (hb : BaseOn i b (0 :: product) (datesFrom today product) bs)
    (hpay : Pays today p) (gauss : Nat → ℝ) :
    runSamples dualOps fuel p (samplesFrom today (bsDual i b) product gauss) =
      (tEvaluate lib fuel p.vars (p.code.zip (tScenario lib bs today gauss).2) (tScenario lib bs today gauss).1).map (fun r => fun k => r.1.dual i (r.2 k)) ∧
    ∀ r, tEvaluate lib fuel p.vars (p.code.zip (tScenario lib bs today gauss).2) (tScenario lib bs today gauss).1 = some r →
      Ext bs.tape r.1 ∧ bs.tape.nodes.length ≤ r.2 p.payoff ∧ r.2 p.payoff < r.1.nodes.length := by
  obtain ⟨e1, s1, slow, s2⟩ := scenario_any lib i b today product bs hb gauss
  set sc := tScenario lib bs today gauss with hsc
  obtain ⟨e2, q1, q2⟩ := tInit_spec i sc.1 p.vars (lt_of_lt_of_le hb.pos e1.le)
  have hmem : ∀ e ∈ p.code.zip sc.2, e.1 ∈ p.code ∧ e.2 ∈ sc.2 := fun e he => List.of_mem_zip (a := e.1) (b := e.2) he
  obtain ⟨r1, r2⟩ := tEvents_dual lib i 0 fuel (p.code.zip sc.2) (tInit sc.1 p.vars).1 (tInit sc.1 p.vars).2
    (lt_of_lt_of_le hb.pos (e1.trans e2).le) (Nat.zero_le _) (fun k => ⟨Nat.zero_le _, (q1 k).2⟩)
    (fun e he => ⟨(s1 e.2 (hmem e he).2).ext e2, Nat.zero_le _⟩)
  refine ⟨?_, fun r hr => ⟨(e1.trans e2).trans (r2 r hr).1, ?_, ((r2 r hr).2 p.payoff).2⟩⟩
  · rw [q2] at r1
    rw [tEvaluate, ← r1, runSamples, ← s2]
    congr 1
    rw [List.zip_map_right, List.map_map]
    refine List.map_congr_left fun e he => ?_
    show _ = (_, sampleDual i (tInit sc.1 p.vars).1 e.2)
    rw [sampleDual_ext (s1 e.2 (hmem e he).2) e2 i]
    rfl
  · rcases hpay with hf | hn
    · have h3 := (tEvents_dual lib i bs.tape.nodes.length fuel (p.code.zip sc.2) (tInit sc.1 p.vars).1 (tInit sc.1 p.vars).2
        (lt_of_lt_of_le hb.pos (e1.trans e2).le) (e1.trans e2).le (fun k => ⟨e1.le.trans (q1 k).1, (q1 k).2⟩)
        (fun e he => ⟨(s1 e.2 (hmem e he).2).ext e2, (List.mem_iff_getElem?.1 (hmem e he).2).elim fun k hk => slow k e.2 hk (.inl hf)⟩)).2 r hr
      exact (h3.2 p.payoff).1
    · exact tEvents_low lib p.payoff bs.tape.nodes.length fuel _ _ _ (fun e he => hn e.1 (hmem e he).1) (e1.trans e2).le (e1.le.trans (q1 p.payoff).1) r hr

theorem runSamples_from_v (i fuel : Nat) (p : Product) (b : BS ℝ) (today : Bool) (product : List ℝ) (gauss : Nat → ℝ) :
    runSamples realOps fuel p (samplesFrom today b product gauss) = (runSamples dualOps fuel p (samplesFrom today (bsDual i b) product gauss)).map fun r => fun k => (r k).v := by
  rw [runSamples, runSamples, ← evaluateCompiled_hom opsHom_v, List.map_map]
  congr 1
  have hs : samplesFrom today b product gauss = (samplesFrom today (bsDual i b) product gauss).map (Sample.map Dual.v) := samplesFrom_v i today b product gauss
  rw [hs, List.zip_map_right, List.map_map]
  refine List.map_congr_left fun e _ => ?_
  show ((⟨e.1.ns, e.1.cs.map id⟩ : Streams ℝ), Sample.map Dual.v e.2) = (⟨e.1.ns, (e.1.cs.map Script.lift).map Dual.v⟩, Sample.map Dual.v e.2)
  rw [List.map_map]
  rfl

theorem tOne_from (lib : Lib) (fuel : Nat) (p : Product) (b : BS ℝ) (today : Bool) (product : List ℝ) (bs : Base) (n : Nat) (hn : 0 < n) (hb : ∀ i, i < n → BaseOn i b (0 :: product) (datesFrom today product) bs) (hpay : Pays today p) (gauss : Nat → ℝ)
    (v : ℝ) (hv : (runSamples realOps fuel p (samplesFrom today b product gauss)).map (· p.payoff) = some v) :
    ∃ d B : Nat → ℝ, (∀ i, i < n → (runSamples dualOps fuel p (samplesFrom today (bsDual i b) product gauss)).map (· p.payoff) = some ⟨v, d i⟩) ∧
      ∀ eps, 0 ≤ eps → ∀ adj, ∃ adj', tOne lib eps fuel p bs today gauss adj = some (v, adj') ∧
        ∀ i, i < n → |∑ k ∈ Finset.range bs.tape.nodes.length, adj' k * tans i bs.tape.nodes k - (∑ k ∈ Finset.range bs.tape.nodes.length, adj k * tans i bs.tape.nodes k + d i)| ≤ eps * B i := by
  have hv0 := runSamples_from_v 0 fuel p b today product gauss
  obtain ⟨h0, h0'⟩ := tEvaluate_from lib 0 fuel p b today product bs (hb 0 hn) hpay gauss
  cases he : tEvaluate lib fuel p.vars (p.code.zip (tScenario lib bs today gauss).2) (tScenario lib bs today gauss).1 with
  | none => rw [hv0, h0, he] at hv; simp at hv
  | some r =>
    obtain ⟨t, σ⟩ := r
    obtain ⟨ext, hσ⟩ := h0' _ he
    dsimp only at ext hσ
    have hval : t.env (σ p.payoff) = v := by
      rw [hv0, h0, he] at hv
      exact Option.some.inj hv
    have hlin : ∀ i, i < n → Lin t.nodes (tans i t.nodes) i := by
      intro i hi
      refine lin_of_back (ext.back (hb i hi).back) ?_
      obtain ⟨q, hq⟩ := ext.pre
      rw [← hq, List.getElem?_append_left (hb i hi).pos, (hb i hi).leaf]
    refine ⟨fun i => tans i t.nodes (σ p.payoff), fun i => ∑ k ∈ Finset.Ico bs.tape.nodes.length (σ p.payoff + 1), |tans i t.nodes k|, ?_, ?_⟩
    · intro i hi
      rw [(tEvaluate_from lib i fuel p b today product bs (hb i hi) hpay gauss).1, he, ← hval]
      rfl
    · intro eps heps adj
      have hm := hσ
      have hdown := fun i hi => down_ok heps (hlin i hi) (σ p.payoff - bs.tape.nodes.length) (σ p.payoff)
        (Function.update (fun k => if k < bs.tape.nodes.length then adj k else 0) (σ p.payoff) 1) hm.2 (by omega)
      obtain ⟨adj', a1, -⟩ := hdown 0 hn
      refine ⟨adj', ?_, ?_⟩
      · rw [tOne]
        rw [he]
        dsimp only
        rw [propagateFrom, propagate, if_neg (by omega), a1]
        dsimp only
        rw [hval]
      · intro i hi
        obtain ⟨adj'', a2, a3⟩ := hdown i hi
        rw [a1] at a2
        cases a2
        rw [show σ p.payoff - (σ p.payoff - bs.tape.nodes.length) = bs.tape.nodes.length by omega, weight_total_low _ _ ext.le (hb i hi).pos, total_start _ _ hm.2 hm.1 (hb i hi).pos] at a3
        have hsum : ∀ a : Nat → ℝ, ∑ k ∈ Finset.range bs.tape.nodes.length, a k * tans i t.nodes k = ∑ k ∈ Finset.range bs.tape.nodes.length, a k * tans i bs.tape.nodes k := fun a =>
          Finset.sum_congr rfl fun k hk => by rw [ext.tan i k (Finset.mem_range.1 hk)]
        rw [hsum, hsum] at a3
        exact a3

theorem tPaths_from (lib : Lib) (fuel : Nat) (p : Product) (b : BS ℝ) (today : Bool) (product : List ℝ) (bs : Base) (n : Nat) (hn : 0 < n) (hb : ∀ i, i < n → BaseOn i b (0 :: product) (datesFrom today product) bs) (hpay : Pays today p)
    (value : (Nat → ℝ) → ℝ) (deriv : Nat → (Nat → ℝ) → ℝ) : ∀ (gs : List (Nat → ℝ)),
    (∀ g ∈ gs, ∀ i, i < n → (runSamples dualOps fuel p (samplesFrom today (bsDual i b) product g)).map (· p.payoff) = some ⟨value g, deriv i g⟩) →
    ∃ B : Nat → ℝ, ∀ eps, 0 ≤ eps → ∀ sum adj, ∃ adj', tPaths lib eps fuel p bs today gs sum adj = some (sum + (gs.map value).sum, adj') ∧
        ∀ i, i < n → |∑ k ∈ Finset.range bs.tape.nodes.length, adj' k * tans i bs.tape.nodes k -
          (∑ k ∈ Finset.range bs.tape.nodes.length, adj k * tans i bs.tape.nodes k + (gs.map (deriv i)).sum)| ≤ eps * B i := by
  intro gs
  induction gs with
  | nil => intro _; exact ⟨fun _ => 0, fun eps _ sum adj => ⟨adj, by simp [tPaths], fun i _ => by simp⟩⟩
  | cons g gs ih =>
    intro h
    obtain ⟨B1, hB1⟩ := ih fun g' hg' => h g' (List.mem_cons_of_mem _ hg')
    have hg := h g (List.mem_cons_self ..)
    have hv : (runSamples realOps fuel p (samplesFrom today b product g)).map (· p.payoff) = some (value g) := by
      have h1 := runSamples_from_v 0 fuel p b today product g
      have h2 := hg 0 hn
      cases hr : runSamples dualOps fuel p (samplesFrom today (bsDual 0 b) product g) with
      | none => rw [hr] at h2; simp at h2
      | some r =>
        rw [hr] at h1 h2
        rw [h1]
        have := congrArg (Option.map Dual.v) h2
        simpa using this
    obtain ⟨d, B2, hd, hB2⟩ := tOne_from lib fuel p b today product bs n hn hb hpay g (value g) hv
    refine ⟨fun i => B2 i + B1 i, fun eps heps sum adj => ?_⟩
    obtain ⟨adj1, o1, o2⟩ := hB2 eps heps adj
    obtain ⟨adj2, p1, p2⟩ := hB1 eps heps (sum + value g) adj1
    refine ⟨adj2, ?_, fun i hi => ?_⟩
    · rw [tPaths, o1]
      dsimp only
      rw [p1, List.map_cons, List.sum_cons, add_assoc]
    · have e1 := o2 i hi
      have e2 := p2 i hi
      have hdi : d i = deriv i g := by
        have := (hd i hi).symm.trans (hg i hi)
        simpa using this
      rw [hdi] at e1
      rw [List.map_cons, List.sum_cons, mul_add]
      rw [abs_le] at e1 e2 ⊢
      constructor <;> linarith [e1.1, e1.2, e2.1, e2.2]

/-! ### Which products copy no number to the payoff -/

mutual
/-- A statement that assigns variable `k`; `PAYS` is not an assignment. -/
def assignsS {D : Type} (k : Nat) : Stmt Nat D → Bool
  | .assign x _ => x.v == k
  | .pays _ _ => false
  | .ite _ t _ e _ _ => assignsSs k t || assignsSs k e
  | .collect b => assignsSs k b
/-- Statements of which one assigns variable `k`. -/
def assignsSs {D : Type} (k : Nat) : Stmts Nat D → Bool
  | .nil => false
  | .cons s ss => assignsS k s || assignsSs k ss
end

section
variable {D : Type} {k : Nat}

/-- No copy to `k`, and no copy left open at the end. -/
private def Sealed (k : Nat) (ns : List Word) : Prop := ∀ j, ns[j]? = some (.op .assign) → j + 1 < ns.length ∧ argAt ns (j + 1) ≠ some k

private theorem Sealed.push {ns : List Word} (h : Sealed k ns) {w : Word} (hw : w ≠ .op .assign) : Sealed k (ns ++ [w]) := by
  intro j hj
  by_cases hl : j < ns.length
  · rw [List.getElem?_append_left hl] at hj
    obtain ⟨h1, h2⟩ := h j hj
    exact ⟨by simp; omega, by simpa only [argAt, List.getElem?_append_left h1] using h2⟩
  · rw [List.getElem?_append_right (by omega)] at hj
    have h0 : j - ns.length = 0 := by
      have := (List.getElem?_eq_some_iff.1 hj).1
      simpa using this
    rw [h0] at hj
    exact absurd (by simpa using hj) hw

private theorem Sealed.copy {ns : List Word} (h : Sealed k ns) {x : Nat} (hx : x ≠ k) : Sealed k (ns ++ [.op .assign] ++ [.arg x]) := by
  intro j hj
  by_cases hl : j < ns.length
  · rw [List.append_assoc, List.getElem?_append_left hl] at hj
    obtain ⟨h1, h2⟩ := h j hj
    exact ⟨by simp; omega, by simpa only [argAt, List.append_assoc, List.getElem?_append_left h1] using h2⟩
  · rw [List.append_assoc, List.getElem?_append_right (by omega)] at hj
    have hj1 : j - ns.length < 2 := by
      have := (List.getElem?_eq_some_iff.1 hj).1
      simpa using this
    have h0 : j = ns.length := by
      by_contra hne
      have h1 : j - ns.length = 1 := by omega
      rw [h1] at hj
      simp at hj
    subst h0
    refine ⟨by simp, ?_⟩
    rw [argAt, List.append_assoc, List.getElem?_append_right (by omega)]
    simpa using hx

private theorem Sealed.put {ns : List Word} (h : Sealed k ns) {i n : Nat} (hi : ns[i]? ≠ some (.op .assign)) : Sealed k (ns.set (i + 1) (.arg n)) := by
  intro j hj
  rw [List.getElem?_set] at hj
  by_cases e : i + 1 = j
  · subst e
    simp at hj
  · rw [if_neg e] at hj
    obtain ⟨h1, h2⟩ := h j hj
    refine ⟨by simpa using h1, ?_⟩
    rw [argAt, List.getElem?_set]
    by_cases e' : i + 1 = j + 1
    · obtain rfl : i = j := by omega
      exact absurd hj hi
    · rw [if_neg e']; exact h2

private theorem sealed_const {s : Streams D} (h : Sealed k s.ns) {op : Op} (ho : op ≠ .assign) (c : D) : Sealed k (s.opConst op c).ns := by
  show Sealed k (s.ns ++ [.op op, .arg s.cs.length])
  rw [show s.ns ++ [.op op, .arg s.cs.length] = s.ns ++ [.op op] ++ [.arg s.cs.length] by simp]
  exact (h.push (by simpa using ho)).push (by simp)

private theorem sealed_op {s : Streams D} (h : Sealed k s.ns) {op : Op} (ho : op ≠ .assign) : Sealed k (s.op op).ns := h.push (by simpa using ho)

private theorem sealed_E (e : Expr Nat D) : ∀ (f : Bool) (s : Streams D), Sealed k s.ns → Sealed k (compE f s e).ns := by
  induction e with
  | bin op l r c ihl ihr =>
    intro f s h
    simp only [compE]
    split
    · exact sealed_const h (by decide) _
    · split
      · exact sealed_const (ihr _ _ h) (by cases op <;> decide) _
      · split
        · exact sealed_const (ihl _ _ h) (by cases op <;> decide) _
        · exact sealed_op (ihr _ _ (ihl _ _ h)) (by cases op <;> decide)
  | un op a c ih =>
    intro f s h
    cases op <;> simp only [compE] <;> first
      | exact ih _ _ h
      | (split
         · exact sealed_const h (by decide) _
         · exact sealed_op (ih _ _ h) (by decide))
  | extra m x c ih _ =>
    intro f s h
    simp only [compE]
    split
    · exact sealed_const h (by decide) _
    · exact ih _ _ h
  | const c => intro f s h; exact sealed_const h (by decide) _
  | var i c => intro f s h; exact (sealed_op h (op := .var) (by decide)).push (by simp)
  | constVar i c => intro f s h; exact sealed_const h (by decide) _
  | spot => intro f s h; exact sealed_op h (by decide)

private theorem sealed_C (o : Ops D) (eps : D) (c : Cond Nat D) : ∀ s : Streams D, Sealed k s.ns → Sealed k (compC o eps s c).ns := by
  induction c with
  | cmp op e a f =>
    intro s h
    simp only [compC]
    split
    · refine sealed_op h ?_
      split <;> decide
    · exact sealed_op (sealed_E e _ _ h) (by cases op <;> decide)
  | and l r f ihl ihr => intro s h; exact sealed_op (ihr _ (ihl _ h)) (by decide)
  | or l r f ihl ihr => intro s h; exact sealed_op (ihr _ (ihl _ h)) (by decide)
  | not c f ih => intro s h; exact sealed_op (ih _ h) (by decide)
  | tt => intro s h; exact sealed_op h (by decide)
  | ff => intro s h; exact sealed_op h (by decide)

private theorem kept {l m : List Word} (h : l <+: m) {i : Nat} {w : Word} (hi : l[i]? = some w) : m[i]? = some w := by
  obtain ⟨q, rfl⟩ := h
  rw [List.getElem?_append_left (List.getElem?_eq_some_iff.1 hi).1, hi]

mutual
private theorem sealed_S (o : Ops D) (eps : D) : (st : Stmt Nat D) → (s : Streams D) → assignsS k st = false → Sealed k s.ns → Sealed k (compS o eps s st).ns
  | .assign x e, s, hn, h => by
    simp only [compS]
    have hx : x.v ≠ k := by simpa [assignsS] using hn
    split
    · exact (sealed_const h (op := .assignConst) (by decide) _).push (by simp)
    · exact (sealed_E e _ _ h).copy hx
  | .pays x e, s, hn, h => by
    simp only [compS]
    split
    · exact (sealed_const h (op := .paysConst) (by decide) _).push (by simp)
    · exact (sealed_op (sealed_E e _ _ h) (op := .pays) (by decide)).push (by simp)
  | .ite c t he e af f, s, hn, h => by
    simp only [assignsS, Bool.or_eq_false_iff] at hn
    have h1 := sealed_C o eps c s h
    simp only [compS]
    split
    · have h2 : Sealed k ((((compC o eps s c).op .ifElse).arg 0).arg 0).ns := ((sealed_op h1 (op := .ifElse) (by decide)).push (w := .arg 0) (by simp)).push (w := .arg 0) (by simp)
      have h3 := sealed_Ss o eps t _ hn.1 h2
      have hp := (compSs_pre o eps t ((((compC o eps s c).op .ifElse).arg 0).arg 0)).1
      have w0 : ((((compC o eps s c).op .ifElse).arg 0).arg 0).ns[(compC o eps s c).ns.length]? = some (.op .ifElse) := by simp [Streams.op, Streams.arg]
      have w1 : ((((compC o eps s c).op .ifElse).arg 0).arg 0).ns[(compC o eps s c).ns.length + 1]? = some (.arg 0) := by
        simp [Streams.op, Streams.arg]
      have w0' := kept hp w0
      have w1' := kept hp w1
      generalize compSs o eps ((((compC o eps s c).op .ifElse).arg 0).arg 0) t = s3 at *
      have h4 : Sealed k (s3.ns.set ((compC o eps s c).ns.length + 1) (.arg s3.ns.length)) := h3.put (by rw [w0']; simp)
      have h5 := sealed_Ss o eps e { s3 with ns := s3.ns.set ((compC o eps s c).ns.length + 1) (.arg s3.ns.length) } hn.2 h4
      have hq := (compSs_pre o eps e { s3 with ns := s3.ns.set ((compC o eps s c).ns.length + 1) (.arg s3.ns.length) }).1
      refine h5.put ?_
      have w2 : (s3.ns.set ((compC o eps s c).ns.length + 1) (.arg s3.ns.length))[(compC o eps s c).ns.length + 1]? = some (.arg s3.ns.length) := by
        rw [List.getElem?_set, if_pos rfl, if_pos (List.getElem?_eq_some_iff.1 w1').1]
      rw [kept hq w2]
      simp
    · have h2 : Sealed k (((compC o eps s c).op .iff).arg 0).ns := (sealed_op h1 (op := .iff) (by decide)).push (w := .arg 0) (by simp)
      have h3 := sealed_Ss o eps t _ hn.1 h2
      have hp := (compSs_pre o eps t (((compC o eps s c).op .iff).arg 0)).1
      have w0 : (((compC o eps s c).op .iff).arg 0).ns[(compC o eps s c).ns.length]? = some (.op .iff) := by simp [Streams.op, Streams.arg]
      refine h3.put ?_
      rw [kept hp w0]
      simp
  | .collect b, s, hn, h => by simp only [compS]; exact sealed_Ss o eps b s (by simpa [assignsS] using hn) h
private theorem sealed_Ss (o : Ops D) (eps : D) : (ss : Stmts Nat D) → (s : Streams D) → assignsSs k ss = false → Sealed k s.ns → Sealed k (compSs o eps s ss).ns
  | .nil, s, _, h => by simpa only [compSs] using h
  | .cons st ss, s, hn, h => by
    simp only [assignsSs, Bool.or_eq_false_iff] at hn
    simp only [compSs]
    exact sealed_Ss o eps ss _ hn.2 (sealed_S o eps st s hn.1 h)
end

/-- The streams of an event that does not assign `k` have no instruction that copies to `k`. -/
theorem noCopy_compiled (o : Ops D) (eps : D) (ev : Stmts Nat D) (h : assignsSs k ev = false) : NoCopy k (compileEvent o eps ev).ns :=
  fun j hj => (sealed_Ss o eps ev {} h (fun i hi => by simp at hi) j hj).2

mutual
theorem assignsS_const (o : Ops D) : (st : Stmt Nat D) → (cb : Bool) → (vc : ConstSt D) → assignsS k (constS o cb vc st).2 = assignsS k st
  | .assign _ _, _, _ => by simp only [constS, assignsS]
  | .pays _ _, _, _ => by simp only [constS, assignsS]
  | .ite c t he e af f, cb, vc => by
    simp only [constS, assignsS]
    rw [assignsSs_const o t true vc, assignsSs_const o e true _]
  | .collect b, cb, vc => by simp only [constS, assignsS]; exact assignsSs_const o b cb vc
theorem assignsSs_const (o : Ops D) : (ss : Stmts Nat D) → (cb : Bool) → (vc : ConstSt D) → assignsSs k (constSs o cb vc ss).2 = assignsSs k ss
  | .nil, _, _ => by simp only [constSs, assignsSs]
  | .cons s ss, cb, vc => by
    simp only [constSs, assignsSs]
    rw [assignsS_const o s cb vc, assignsSs_const o ss cb _]
end

/-- What holds of every event however it is marked holds of the events marked in turn. -/
theorem marked_all (o : Ops D) {P : Stmts Nat D → Prop} : ∀ (es : List (Stmts Nat D)) (vc : ConstSt D), (∀ ev ∈ es, ∀ vc, P (constSs o false vc ev).2) → ∀ ev ∈ (constEvents o vc es).2, P ev := by
  intro es
  induction es with
  | nil => intro vc _ ev hev; cases hev
  | cons e es ih =>
    intro vc h ev hev
    rcases List.mem_cons.1 hev with rfl | hev
    · exact h e List.mem_cons_self vc
    · exact ih _ (fun e he => h e (List.mem_cons_of_mem _ he)) ev hev

end
end Dal.TapeRun
