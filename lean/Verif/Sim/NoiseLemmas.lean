import Verif.Sim.NoiseModel
import Verif.Sim.PriceLemmas
import Mathlib.Probability.Independence.InfinitePi
import Mathlib.Probability.Moments.Variance

/-! # Windows of a stream of independent normal numbers -/

namespace Dal
open MeasureTheory ProbabilityTheory

/-- An endless stream of independent standard normal numbers. -/
noncomputable def noise : Measure (ℕ → ℝ) := Measure.infinitePi fun _ => gaussianReal 0 1

instance : IsProbabilityMeasure noise := by unfold noise; infer_instance

/-- The numbers of a path that starts at a position. -/
def window (n p : ℕ) (ω : ℕ → ℝ) : Fin n → ℝ := fun j => ω (p + j)

theorem window_measurable (n p : ℕ) : Measurable (window n p) := measurable_pi_lambda _ fun j => measurable_pi_apply _

theorem noise_indep : iIndepFun (fun (i : ℕ) (ω : ℕ → ℝ) => ω i) noise :=
  iIndepFun_infinitePi (X := fun _ x => x) fun _ => measurable_id

theorem window_law (n p : ℕ) : MeasurePreserving (window n p) noise (Measure.pi fun _ : Fin n => gaussianReal 0 1) := by
  refine ⟨window_measurable n p, ?_⟩
  have h1 : iIndepFun (fun (j : Fin n) (ω : ℕ → ℝ) => ω (p + j)) noise :=
    noise_indep.precomp (g := fun j : Fin n => p + j.1) fun a b h => Fin.ext (by simpa using h)
  have h2 := (iIndepFun_iff_map_fun_eq_pi_map (fun j => (measurable_pi_apply _).aemeasurable)).1 h1
  rw [show window n p = fun ω (j : Fin n) => ω (p + j) from rfl, h2]
  congr 1
  funext j
  exact Measure.infinitePi_map_eval _ _

theorem windows_indep (n p q : ℕ) (h : p + n ≤ q ∨ q + n ≤ p) : IndepFun (window n p) (window n q) noise := by
  have h1 := noise_indep.indepFun_finset (Finset.Ico p (p + n)) (Finset.Ico q (q + n)) (by
    rw [Finset.disjoint_left]
    intro a ha hb
    rw [Finset.mem_Ico] at ha hb
    omega) fun i => measurable_pi_apply i
  have key : ∀ r : ℕ, ∃ φ : ((Finset.Ico r (r + n)) → ℝ) → Fin n → ℝ, Measurable φ ∧ window n r = φ ∘ fun (ω : ℕ → ℝ) (i : Finset.Ico r (r + n)) => ω i := fun r =>
    ⟨fun x j => x ⟨r + j, by rw [Finset.mem_Ico]; omega⟩, measurable_pi_lambda _ fun j => measurable_pi_apply _, rfl⟩
  obtain ⟨φ, hφ, e1⟩ := key p
  obtain ⟨ψ, hψ, e2⟩ := key q
  rw [e1, e2]
  exact h1.comp hφ hψ

variable {n : ℕ} {F : (Fin n → ℝ) → ℝ}

theorem window_mean (p : ℕ) (hF : AEStronglyMeasurable F (Measure.pi fun _ : Fin n => gaussianReal 0 1)) : ∫ ω, F (window n p ω) ∂noise = ∫ g, F g ∂(Measure.pi fun _ : Fin n => gaussianReal 0 1) := by
  have h := window_law n p
  rw [← h.map_eq] at hF ⊢
  rw [integral_map h.measurable.aemeasurable hF]

theorem window_lp (p : ℕ) (hF : MemLp F 2 (Measure.pi fun _ : Fin n => gaussianReal 0 1)) : MemLp (fun ω => F (window n p ω)) 2 noise :=
  hF.comp_measurePreserving (window_law n p)

theorem window_variance (p : ℕ) (hF : MemLp F 2 (Measure.pi fun _ : Fin n => gaussianReal 0 1)) :
    variance (fun ω => F (window n p ω)) noise = variance F (Measure.pi fun _ : Fin n => gaussianReal 0 1) := by
  have h := window_law n p
  have h1 := hF.aestronglyMeasurable.aemeasurable
  rw [← h.map_eq] at h1 ⊢
  exact (variance_map h1 h.measurable.aemeasurable).symm

theorem window_cov (p q : ℕ) (hF : MemLp F 2 (Measure.pi fun _ : Fin n => gaussianReal 0 1)) (h : p ≠ q → p + n ≤ q ∨ q + n ≤ p) :
    covariance (fun ω => F (window n p ω)) (fun ω => F (window n q ω)) noise = if p = q then variance F (Measure.pi fun _ : Fin n => gaussianReal 0 1) else 0 := by
  by_cases hpq : p = q
  · subst hpq
    rw [if_pos rfl, covariance_self (window_lp p hF).aestronglyMeasurable.aemeasurable, window_variance p hF]
  · rw [if_neg hpq]
    have hm := hF.aestronglyMeasurable.aemeasurable
    have h1 := (windows_indep n p q (h hpq)).comp₀ (window_measurable n p).aemeasurable (window_measurable n q).aemeasurable
      (φ := F) (ψ := F) (by rw [(window_law n p).map_eq]; exact hm) (by rw [(window_law n q).map_eq]; exact hm)
    exact h1.covariance_eq_zero (window_lp p hF) (window_lp q hF)

/-- The variance of a sum over windows that are equal or apart. -/
theorem windows_variance (l : List ℕ) (hF : MemLp F 2 (Measure.pi fun _ : Fin n => gaussianReal 0 1)) (h : ∀ p ∈ l, ∀ q ∈ l, p ≠ q → p + n ≤ q ∨ q + n ≤ p) :
    variance (fun ω => (l.map fun p => F (window n p ω)).sum) noise =
      ((l.map fun p => l.count p).sum : ℕ) * variance F (Measure.pi fun _ : Fin n => gaussianReal 0 1) := by
  have e1 : (fun ω => (l.map fun p => F (window n p ω)).sum) = fun ω => ∑ i : Fin l.length, F (window n l[i] ω) := by
    funext ω
    rw [← List.sum_ofFn]
    congr 1
    apply List.ext_getElem <;> simp
  rw [e1, variance_fun_sum fun i => window_lp _ hF]
  have e2 : ∀ i j : Fin l.length, covariance (fun ω => F (window n l[i] ω)) (fun ω => F (window n l[j] ω)) noise =
      (if l[i] = l[j] then 1 else 0) * variance F (Measure.pi fun _ : Fin n => gaussianReal 0 1) := by
    intro i j
    rw [window_cov l[i] l[j] hF (h l[i] (List.getElem_mem _) l[j] (List.getElem_mem _))]
    split_ifs <;> simp
  simp only [e2, ← Finset.sum_mul]
  congr 1
  have e3 : ∀ p : ℕ, ((l.count p : ℕ) : ℝ) = ∑ j : Fin l.length, if p = l[j] then (1 : ℝ) else 0 := by
    intro p
    rw [← List.sum_ofFn, show List.ofFn (fun j : Fin l.length => if p = l[j] then (1 : ℝ) else 0) = l.map fun q => if p = q then (1 : ℝ) else 0 by
      apply List.ext_getElem <;> simp]
    clear e1 e2 h
    induction l with
    | nil => simp
    | cons a l ih =>
      rw [List.count_cons, List.map_cons, List.sum_cons, ← ih]
      by_cases hpa : p = a
      · simp [hpa, add_comm]
      · simp [hpa, Ne.symm hpa]
  rw [show (((l.map fun p => l.count p).sum : ℕ) : ℝ) = ∑ i : Fin l.length, ((l.count l[i] : ℕ) : ℝ) by
    rw [← List.sum_ofFn, Nat.cast_list_sum, List.map_map]
    congr 1
    apply List.ext_getElem <;> simp]
  exact Finset.sum_congr rfl fun i _ => (e3 _).symm

end Dal
