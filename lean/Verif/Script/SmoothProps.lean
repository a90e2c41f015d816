import Verif.Script.SmoothModel
import Verif.Script.GradientProps

/-!
# C101: the derivatives of smoothed scripts

Specification: as for C99, with the values that the smoothed evaluator computes with doubles. What must not happen at the point: a tie with an edge of a band or with the thresholds of
`EPSILON`, or a butterfly at its top, unless a small move of the parameter keeps it; a width of zero where it is divided by; a negation, whose degree is undefined.
-/

namespace Dal
open Dal.Models Dal.Script Filter Topology

/-- What a comparison needs of the compared value for its degree to have a derivative. -/
def EdgeSettled (op : CmpOp) (discrete : Bool) (w lb rb : ℝ) (f : ℝ → ℝ) (u : ℝ) : Prop :=
  match op with
  | .equal =>
    if discrete then Steady (fun t => f t - lb) u ∧ Steady (fun t => f t - rb) u ∧ Steady f u ∧ (lb ≤ f u → f u ≤ rb → if f u < 0 then lb ≠ 0 else rb ≠ 0)
    else Steady (fun t => f t + w / 2) u ∧ Steady (fun t => f t - w / 2) u ∧ Steady f u ∧ (-(w / 2) ≤ f u → f u ≤ w / 2 → w ≠ 0)
  | _ =>
    if discrete then Steady (fun t => f t - lb) u ∧ Steady (fun t => f t - rb) u ∧ (lb ≤ f u → f u ≤ rb → rb ≠ lb)
    else Steady (fun t => f t + w / 2) u ∧ Steady (fun t => f t - w / 2) u ∧ (-(w / 2) ≤ f u → f u ≤ w / 2 → w ≠ 0)

/-- What a condition needs for its degree to have a derivative. -/
def SmoothC (cv : ℝ → Nat → ℝ) (sp : ℝ → Script.Sample ℝ) (defEps : ℝ) (σ : ℝ → Nat → ℝ) (u : ℝ) : Cond Nat ℝ → Prop
  | .cmp op e a _ => SettledE cv sp σ u e ∧ EdgeSettled op a.discrete (if a.eps < 0 then defEps else a.eps) a.lb a.rb (fun t => evalE realOps (cv t) (sp t) (σ t) e) u
  | .and l r _ => SmoothC cv sp defEps σ u l ∧ SmoothC cv sp defEps σ u r
  | .or l r _ => SmoothC cv sp defEps σ u l ∧ SmoothC cv sp defEps σ u r
  | .not _ _ => False
  | _ => True

/-- The state after a run; any state if the run is undefined. -/
def stateOf (o : Option (FSt ℝ)) : FSt ℝ := o.getD ⟨fun _ => 0, fun _ _ => 0, fun _ _ => 0⟩

mutual
/-- What a statement needs; only what is visited matters. -/
def SmoothS (cv : ℝ → Nat → ℝ) (sp : ℝ → Script.Sample ℝ) (defEps eps : ℝ) (u : ℝ) : Stmt Nat ℝ → Nat → (ℝ → FSt ℝ) → Prop
  | .assign _ e, _, s => SettledE cv sp (fun r => (s r).σ) u e
  | .pays _ e, _, s => SettledE cv sp (fun r => (s r).σ) u e ∧ (sp u).numeraire ≠ 0
  | .ite c t he e af _, lvl, s =>
    let dt := fun r => (fuzzyC realOps (cv r) (sp r) defEps (s r).σ c).getD 0
    SmoothC cv sp defEps (fun r => (s r).σ) u c ∧ Steady (fun r => dt r - (1 - eps)) u ∧ Steady (fun r => dt r - eps) u ∧
      if 1 - eps < dt u then SmoothSs cv sp defEps eps u t (lvl + 1) s
      else if dt u < eps then he = true → SmoothSs cv sp defEps eps u e (lvl + 1) s
      else
        let a := fun r => stateOf (fuzzySs realOps (cv r) (sp r) defEps eps t (lvl + 1) { s r with s0 := setRow (s r).s0 lvl af (s r).σ })
        SmoothSs cv sp defEps eps u t (lvl + 1) (fun r => { s r with s0 := setRow (s r).s0 lvl af (s r).σ }) ∧
          (he = true → SmoothSs cv sp defEps eps u e (lvl + 1) fun r => { a r with s1 := setRow (a r).s1 lvl af (a r).σ, σ := setVars (a r).σ af ((a r).s0 lvl) })
  | .collect b, lvl, s => SmoothSs cv sp defEps eps u b lvl s
/-- What a list of statements needs. -/
def SmoothSs (cv : ℝ → Nat → ℝ) (sp : ℝ → Script.Sample ℝ) (defEps eps : ℝ) (u : ℝ) : Stmts Nat ℝ → Nat → (ℝ → FSt ℝ) → Prop
  | .nil, _, _ => True
  | .cons st ss, lvl, s => SmoothS cv sp defEps eps u st lvl s ∧
      SmoothSs cv sp defEps eps u ss lvl (fun r => stateOf (fuzzyS realOps (cv r) (sp r) defEps eps st lvl (s r)))
end

/-- What the events of a product need. -/
def Smooth (cv : ℝ → Nat → ℝ) (defEps eps : ℝ) (u : ℝ) : List (Stmts Nat ℝ × (ℝ → Script.Sample ℝ)) → (ℝ → FSt ℝ) → Prop
  | [], _ => True
  | ev :: evs, s => SmoothSs cv ev.2 defEps eps u ev.1 0 s ∧ Smooth cv defEps eps u evs (fun r => stateOf (fuzzySs realOps (cv r) (ev.2 r) defEps eps ev.1 0 (s r)))

/-- A partial function with its derivative. -/
private def OTracks (F : ℝ → Option ℝ) (u : ℝ) (o : Option Dual) : Prop :=
  ∃ g b, o = some b ∧ (∀ᶠ t in 𝓝 u, F t = some (g t)) ∧ Tracks g u b

/-- A state with its derivatives. -/
private def FTracks (g : ℝ → FSt ℝ) (u : ℝ) (b : FSt Dual) : Prop :=
  (∀ i, Tracks (fun t => (g t).σ i) u (b.σ i)) ∧ (∀ l i, Tracks (fun t => (g t).s0 l i) u (b.s0 l i)) ∧ ∀ l i, Tracks (fun t => (g t).s1 l i) u (b.s1 l i)

/-- A partial state with its derivatives. -/
private def STracks (F : ℝ → Option (FSt ℝ)) (u : ℝ) (o : Option (FSt Dual)) : Prop :=
  ∃ b, o = some b ∧ (∀ᶠ t in 𝓝 u, F t = some (stateOf (F t))) ∧ FTracks (fun t => stateOf (F t)) u b

private theorem ft_congr {g h : ℝ → FSt ℝ} {u : ℝ} {b : FSt Dual} (hg : FTracks g u b) (he : ∀ᶠ t in 𝓝 u, h t = g t) : FTracks h u b :=
  ⟨fun i => tracks_congr (hg.1 i) (by filter_upwards [he] with t ht; rw [ht]), fun l i => tracks_congr (hg.2.1 l i) (by filter_upwards [he] with t ht; rw [ht]),
    fun l i => tracks_congr (hg.2.2 l i) (by filter_upwards [he] with t ht; rw [ht])⟩

private theorem st_intro {F : ℝ → Option (FSt ℝ)} {g : ℝ → FSt ℝ} {u : ℝ} {b : FSt Dual} (hF : ∀ᶠ t in 𝓝 u, F t = some (g t)) (hg : FTracks g u b) : STracks F u (some b) := by
  refine ⟨b, rfl, ?_, ft_congr hg ?_⟩
  · filter_upwards [hF] with t ht
    rw [ht]; rfl
  · filter_upwards [hF] with t ht
    rw [ht]; rfl

private theorem st_congr {F G : ℝ → Option (FSt ℝ)} {u : ℝ} {o : Option (FSt Dual)} (h : STracks F u o) (he : ∀ᶠ t in 𝓝 u, G t = F t) : STracks G u o := by
  obtain ⟨b, h1, h2, h3⟩ := h
  subst h1
  refine st_intro (g := fun t => stateOf (F t)) ?_ h3
  filter_upwards [he, h2] with t e1 e2
  rw [e1]; exact e2

private theorem lift_tracks (c u : ℝ) : Tracks (fun _ => c) u (lift c) := ⟨rfl, hasDerivAt_const u c⟩

private theorem div_tracks {f : ℝ → ℝ} {u y : ℝ} {a : Dual} (ha : Tracks f u a) (hy : y ≠ 0) : OTracks (fun t => fdiv (f t) y) u (dualDiv a y) := by
  refine ⟨fun t => f t / y, _, by rw [dualDiv, if_neg hy], Eventually.of_forall fun t => by simp only [fdiv, if_neg hy], ?_⟩
  exact bin_tracks (op := .div) ha (lift_tracks y u) hy

private theorem below {f : ℝ → ℝ} {u d c : ℝ} (hd : HasDerivAt f d u) (h : Steady (fun t => f t - c) u) : ∀ᶠ t in 𝓝 u, (f t < c ↔ f u < c) ∧ (c < f t ↔ c < f u) := by
  filter_upwards [steady_sign (hd.sub_const c) h] with t ht
  exact ⟨by simpa only [sub_neg] using ht.2.2, by simpa only [sub_pos] using ht.2.1⟩

private theorem ot_const {F : ℝ → Option ℝ} {u c : ℝ} (hF : ∀ᶠ t in 𝓝 u, F t = some c) : OTracks F u (some (lift c)) :=
  ⟨fun _ => c, _, rfl, hF, lift_tracks c u⟩

private theorem ot_congr {F G : ℝ → Option ℝ} {u : ℝ} {o : Option Dual} (h : OTracks F u o) (he : ∀ᶠ t in 𝓝 u, G t = F t) : OTracks G u o := by
  obtain ⟨g, b, h1, h2, h3⟩ := h
  refine ⟨g, b, h1, ?_, h3⟩
  filter_upwards [he, h2] with t e1 e2
  rw [e1, e2]

private theorem cspr2_tracks {f : ℝ → ℝ} {u lb rb : ℝ} {a : Dual} (ha : Tracks f u a) (h1 : Steady (fun t => f t - lb) u) (h2 : Steady (fun t => f t - rb) u)
    (h3 : lb ≤ f u → f u ≤ rb → rb ≠ lb) : OTracks (fun t => cspr2 (f t) lb rb) u (dualCspr2 a lb rb) := by
  have n1 := below ha.2 h1
  have n2 := below ha.2 h2
  unfold dualCspr2
  rw [ha.1]
  by_cases hl : f u < lb
  · rw [if_pos hl]
    refine ot_const ?_
    filter_upwards [n1] with t ht
    rw [cspr2, if_pos (ht.1.2 hl)]
  · rw [if_neg hl]
    by_cases hr : rb < f u
    · rw [if_pos hr]
      refine ot_const ?_
      filter_upwards [n1, n2] with t t1 t2
      rw [cspr2, if_neg (fun hc => hl (t1.1.1 hc)), if_pos (t2.2.2 hr)]
    · rw [if_neg hr]
      refine ot_congr (div_tracks (bin_tracks (op := .sub) ha (lift_tracks lb u) trivial) (sub_ne_zero.2 (h3 (not_lt.1 hl) (not_lt.1 hr)))) ?_
      filter_upwards [n1, n2] with t t1 t2
      rw [cspr2, if_neg (fun hc => hl (t1.1.1 hc)), if_neg (fun hc => hr (t2.2.1 hc))]
      rfl

private theorem cspr_tracks {f : ℝ → ℝ} {u w : ℝ} {a : Dual} (ha : Tracks f u a) (h1 : Steady (fun t => f t + w / 2) u) (h2 : Steady (fun t => f t - w / 2) u)
    (h3 : -(w / 2) ≤ f u → f u ≤ w / 2 → w ≠ 0) : OTracks (fun t => cspr (f t) w) u (dualCspr a w) := by
  have n1 := below (c := -(w / 2)) ha.2 (by simpa only [sub_neg_eq_add] using h1)
  have n2 := below ha.2 h2
  unfold dualCspr
  rw [ha.1]
  by_cases hl : f u < -(w / 2)
  · rw [if_pos hl]
    refine ot_const ?_
    filter_upwards [n1] with t ht
    rw [cspr, if_pos (ht.1.2 hl)]
  · rw [if_neg hl]
    by_cases hr : w / 2 < f u
    · rw [if_pos hr]
      refine ot_const ?_
      filter_upwards [n1, n2] with t t1 t2
      rw [cspr, if_neg (fun hc => hl (t1.1.1 hc)), if_pos (t2.2.2 hr)]
    · rw [if_neg hr]
      refine ot_congr (div_tracks (bin_tracks (op := .add) ha (lift_tracks (w / 2) u) trivial) (h3 (not_lt.1 hl) (not_lt.1 hr))) ?_
      filter_upwards [n1, n2] with t t1 t2
      rw [cspr, if_neg (fun hc => hl (t1.1.1 hc)), if_neg (fun hc => hr (t2.2.1 hc))]
      rfl

private theorem abs_tracks {f : ℝ → ℝ} {u : ℝ} {a : Dual} (ha : Tracks f u a) (h : Steady f u) : Tracks (fun t => if f t < 0 then -f t else f t) u (dualAbs a) := by
  obtain ⟨av, ad⟩ := a
  obtain ⟨h1, h2⟩ := ha
  dsimp only at h1 h2
  subst h1
  have n := steady_sign h2 h
  rcases lt_trichotomy (f u) 0 with hl | hz | hg
  · have e : dualAbs ⟨f u, ad⟩ = ⟨-f u, -ad⟩ := by rw [dualAbs, abs_of_neg hl, if_neg (not_lt.2 hl.le), neg_one_mul]
    rw [e]
    refine tracks_congr (f := fun t => -f t) ⟨rfl, h2.neg⟩ ?_
    filter_upwards [n] with t ht
    rw [if_pos (ht.2.2.2 hl)]
  · have hz' : ∀ᶠ t in 𝓝 u, f t = 0 := by filter_upwards [n] with t ht; exact ht.1.2 hz
    have hd : ad = 0 := h2.unique ((hasDerivAt_const u (0 : ℝ)).congr_of_eventuallyEq hz')
    subst hd
    have e : dualAbs ⟨f u, 0⟩ = ⟨0, 0⟩ := by rw [dualAbs, hz, abs_zero, mul_zero]
    rw [e]
    refine tracks_congr (lift_tracks 0 u) ?_
    filter_upwards [hz'] with t ht
    rw [ht, if_neg (lt_irrefl _)]
  · have e : dualAbs ⟨f u, ad⟩ = ⟨f u, ad⟩ := by rw [dualAbs, abs_of_pos hg, if_pos hg, one_mul]
    rw [e]
    refine tracks_congr (f := f) ⟨rfl, h2⟩ ?_
    filter_upwards [n] with t ht
    rw [if_neg (not_lt.2 (ht.2.1.2 hg).le)]

private theorem bfly_tracks {f : ℝ → ℝ} {u w : ℝ} {a : Dual} (ha : Tracks f u a) (h1 : Steady (fun t => f t + w / 2) u) (h2 : Steady (fun t => f t - w / 2) u) (h0 : Steady f u)
    (h3 : -(w / 2) ≤ f u → f u ≤ w / 2 → w ≠ 0) : OTracks (fun t => bfly (f t) w) u (dualBfly a w) := by
  have n1 := below (c := -(w / 2)) ha.2 (by simpa only [sub_neg_eq_add] using h1)
  have n2 := below ha.2 h2
  unfold dualBfly
  rw [ha.1]
  by_cases hl : f u < -(w / 2) ∨ w / 2 < f u
  · rw [if_pos hl]
    refine ot_const ?_
    filter_upwards [n1, n2] with t t1 t2
    rw [bfly, if_pos (by rw [t1.1, t2.2]; exact hl)]
  · rw [if_neg hl]
    have hw : w / 2 ≠ 0 := fun hc => h3 (not_lt.1 fun h => hl (Or.inl h)) (not_lt.1 fun h => hl (Or.inr h)) (by linarith)
    refine ot_congr (div_tracks (bin_tracks (op := .sub) (lift_tracks (w / 2) u) (abs_tracks ha h0) trivial) hw) ?_
    filter_upwards [n1, n2] with t t1 t2
    rw [bfly, if_neg (by rw [t1.1, t2.2]; exact hl)]
    rfl

private theorem one_sub_tracks {F : ℝ → Option ℝ} {u : ℝ} {o : Option Dual} (h : OTracks F u o) :
    OTracks (fun t => (F t).map (fun q => 1 - q)) u (o.map fun q => dualOps.sub (lift 1) q) := by
  obtain ⟨g, b, h1, h2, h3⟩ := h
  subst h1
  refine ⟨fun t => 1 - g t, _, rfl, ?_, bin_tracks (op := .sub) (lift_tracks 1 u) h3 trivial⟩
  filter_upwards [h2] with t ht
  rw [ht]; rfl

private theorem bfly2_tracks {f : ℝ → ℝ} {u lb rb : ℝ} {a : Dual} (ha : Tracks f u a) (h1 : Steady (fun t => f t - lb) u) (h2 : Steady (fun t => f t - rb) u) (h0 : Steady f u)
    (h3 : lb ≤ f u → f u ≤ rb → if f u < 0 then lb ≠ 0 else rb ≠ 0) : OTracks (fun t => bfly2 (f t) lb rb) u (dualBfly2 a lb rb) := by
  have n1 := below ha.2 h1
  have n2 := below ha.2 h2
  have n0 := steady_sign ha.2 h0
  unfold dualBfly2
  rw [ha.1]
  by_cases hl : f u < lb ∨ rb < f u
  · rw [if_pos hl]
    refine ot_const ?_
    filter_upwards [n1, n2] with t t1 t2
    rw [bfly2, if_pos (by rw [t1.1, t2.2]; exact hl)]
  · rw [if_neg hl]
    have hw := h3 (not_lt.1 fun h => hl (Or.inl h)) (not_lt.1 fun h => hl (Or.inr h))
    by_cases hn : f u < 0
    · rw [if_pos hn] at hw ⊢
      refine ot_congr (one_sub_tracks (div_tracks ha hw)) ?_
      filter_upwards [n1, n2, n0] with t t1 t2 t0
      rw [bfly2, if_neg (by rw [t1.1, t2.2]; exact hl), if_pos (t0.2.2.2 hn)]
    · rw [if_neg hn] at hw ⊢
      refine ot_congr (one_sub_tracks (div_tracks ha hw)) ?_
      filter_upwards [n1, n2, n0] with t t1 t2 t0
      rw [bfly2, if_neg (by rw [t1.1, t2.2]; exact hl), if_neg (fun hc => hn (t0.2.2.1 hc))]

private theorem degree_tracks {cv : ℝ → Nat → ℝ} {sp : ℝ → Script.Sample ℝ} {σ : ℝ → Nat → ℝ} {u : ℝ} {cvd : Nat → Dual} {spd : Script.Sample Dual} {σd : Nat → Dual} (defEps : ℝ)
    (hc : ∀ i, Tracks (fun t => cv t i) u (cvd i)) (hp : Tracks (fun t => (sp t).spot) u spd.spot) (hv : ∀ i, Tracks (fun t => σ t i) u (σd i)) :
    ∀ c : Cond Nat ℝ, SmoothC cv sp defEps σ u c → OTracks (fun t => fuzzyC realOps (cv t) (sp t) defEps (σ t) c) u (smoothC cvd spd defEps σd c)
  | .cmp op e a _, h => by
    have he := expr_tracks hc hp hv e h.1
    have h2 := h.2
    simp only [smoothC, fuzzyC]
    cases op with
    | equal =>
      dsimp only [EdgeSettled] at h2 ⊢
      by_cases hd : a.discrete = true
      · simp only [if_pos hd] at h2 ⊢
        exact bfly2_tracks he h2.1 h2.2.1 h2.2.2.1 h2.2.2.2
      · simp only [if_neg hd] at h2 ⊢
        exact bfly_tracks he h2.1 h2.2.1 h2.2.2.1 h2.2.2.2
    | sup =>
      dsimp only [EdgeSettled] at h2 ⊢
      by_cases hd : a.discrete = true
      · simp only [if_pos hd] at h2 ⊢
        exact cspr2_tracks he h2.1 h2.2.1 h2.2.2
      · simp only [if_neg hd] at h2 ⊢
        exact cspr_tracks he h2.1 h2.2.1 h2.2.2
    | supEq =>
      dsimp only [EdgeSettled] at h2 ⊢
      by_cases hd : a.discrete = true
      · simp only [if_pos hd] at h2 ⊢
        exact cspr2_tracks he h2.1 h2.2.1 h2.2.2
      · simp only [if_neg hd] at h2 ⊢
        exact cspr_tracks he h2.1 h2.2.1 h2.2.2
  | .and l r _, h => by
    obtain ⟨g1, b1, e1, n1, t1⟩ := degree_tracks defEps hc hp hv l h.1
    obtain ⟨g2, b2, e2, n2, t2⟩ := degree_tracks defEps hc hp hv r h.2
    refine ⟨fun t => g2 t * g1 t, dualOps.mul b2 b1, by rw [smoothC, e1, e2], ?_, bin_tracks (op := .mul) t2 t1 trivial⟩
    filter_upwards [n1, n2] with t x1 x2
    rw [fuzzyC, x1, x2]
  | .or l r _, h => by
    obtain ⟨g1, b1, e1, n1, t1⟩ := degree_tracks defEps hc hp hv l h.1
    obtain ⟨g2, b2, e2, n2, t2⟩ := degree_tracks defEps hc hp hv r h.2
    refine ⟨fun t => g2 t + g1 t - g2 t * g1 t, dualOps.sub (dualOps.add b2 b1) (dualOps.mul b2 b1), by rw [smoothC, e1, e2], ?_,
      bin_tracks (op := .sub) (bin_tracks (op := .add) t2 t1 trivial) (bin_tracks (op := .mul) t2 t1 trivial) trivial⟩
    filter_upwards [n1, n2] with t x1 x2
    rw [fuzzyC, x1, x2]
  | .not _ _, h => h.elim
  | .tt, _ => ot_const (Eventually.of_forall fun _ => rfl)
  | .ff, _ => ot_const (Eventually.of_forall fun _ => rfl)

private theorem row_tracks {s : ℝ → Nat → Nat → ℝ} {v : ℝ → Nat → ℝ} {u : ℝ} {sd : Nat → Nat → Dual} {vd : Nat → Dual} (lvl : Nat) (af : List Nat)
    (hs : ∀ l i, Tracks (fun t => s t l i) u (sd l i)) (hv : ∀ i, Tracks (fun t => v t i) u (vd i)) (l i : Nat) :
    Tracks (fun t => setRow (s t) lvl af (v t) l i) u (setRow sd lvl af vd l i) := by
  by_cases h : l = lvl ∧ i ∈ af
  · simp only [setRow, if_pos h]; exact hv i
  · simp only [setRow, if_neg h]; exact hs l i

private theorem vars_tracks {s : ℝ → Nat → ℝ} {v : ℝ → Nat → ℝ} {u : ℝ} {sd : Nat → Dual} {vd : Nat → Dual} (af : List Nat)
    (hs : ∀ i, Tracks (fun t => s t i) u (sd i)) (hv : ∀ i, Tracks (fun t => v t i) u (vd i)) (i : Nat) :
    Tracks (fun t => setVars (s t) af (v t) i) u (setVars sd af vd i) := by
  by_cases h : i ∈ af
  · simp only [setVars, if_pos h]; exact hv i
  · simp only [setVars, if_neg h]; exact hs i

mutual
private theorem smooth_stmt {cv : ℝ → Nat → ℝ} {sp : ℝ → Script.Sample ℝ} {u : ℝ} {cvd : Nat → Dual} {spd : Script.Sample Dual} (defEps eps : ℝ)
    (hc : ∀ i, Tracks (fun t => cv t i) u (cvd i)) (hp : Tracks (fun t => (sp t).spot) u spd.spot) (hn : Tracks (fun t => (sp t).numeraire) u spd.numeraire) :
    ∀ (st : Stmt Nat ℝ) (lvl : Nat) (s : ℝ → FSt ℝ) (sd : FSt Dual), FTracks s u sd → SmoothS cv sp defEps eps u st lvl s →
      STracks (fun t => fuzzyS realOps (cv t) (sp t) defEps eps st lvl (s t)) u (smoothS cvd spd defEps eps st lvl sd)
  | .assign x e, lvl, s, sd, hs, h => by
    rw [smoothS]
    refine st_intro (g := fun t => { s t with σ := upd (s t).σ x.v (evalE realOps (cv t) (sp t) (s t).σ e) }) (Eventually.of_forall fun t => by rw [fuzzyS]) ?_
    exact ⟨upd_tracks hs.1 x.v (expr_tracks hc hp hs.1 e h), hs.2⟩
  | .pays x e, lvl, s, sd, hs, h => by
    rw [smoothS]
    rw [SmoothS] at h
    refine st_intro (g := fun t => { s t with σ := upd (s t).σ x.v ((s t).σ x.v + evalE realOps (cv t) (sp t) (s t).σ e / (sp t).numeraire) }) (Eventually.of_forall fun t => by rw [fuzzyS]; rfl) ?_
    exact ⟨upd_tracks hs.1 x.v (bin_tracks (op := .add) (hs.1 x.v) (bin_tracks (op := .div) (expr_tracks hc hp hs.1 e h.1) hn h.2) trivial), hs.2⟩
  | .ite c t he e af fl, lvl, s, sd, hs, h => by
    rw [SmoothS] at h
    dsimp only at h
    obtain ⟨h1, h2, h3, h4⟩ := h
    obtain ⟨g, dt, e1, n1, t1⟩ := degree_tracks defEps hc hp hs.1 c h1
    have hu : (fuzzyC realOps (cv u) (sp u) defEps (s u).σ c).getD 0 = g u := by
      have hz := n1.self_of_nhds
      dsimp only at hz
      rw [hz]; rfl
    have hg : ∀ᶠ r in 𝓝 u, (fuzzyC realOps (cv r) (sp r) defEps (s r).σ c).getD 0 = g r := by
      filter_upwards [n1] with r hr
      rw [hr]; rfl
    have steady : ∀ k : ℝ, Steady (fun r => (fuzzyC realOps (cv r) (sp r) defEps (s r).σ c).getD 0 - k) u → Steady (fun r => g r - k) u := by
      intro k hk
      rcases hk with hk | hk
      · left; dsimp only at hk; rwa [hu] at hk
      · right
        filter_upwards [hk, hg] with r x1 x2
        rwa [x2] at x1
    have m1 := below t1.2 (steady _ h2)
    have m2 := below t1.2 (steady _ h3)
    simp only [hu] at h4
    rw [smoothS, e1]
    dsimp only
    rw [t1.1]
    by_cases hb : 1 - eps < g u
    · rw [if_pos hb] at h4 ⊢
      refine st_congr (smooth_stmts defEps eps hc hp hn t (lvl + 1) s sd hs h4) ?_
      filter_upwards [n1, m1] with r x1 x2
      rw [fuzzyS, x1]
      dsimp only
      rw [if_pos (x2.2.2 hb)]
    · rw [if_neg hb] at h4 ⊢
      by_cases hl : g u < eps
      · rw [if_pos hl] at h4 ⊢
        cases he with
        | true =>
          rw [if_pos rfl]
          refine st_congr (smooth_stmts defEps eps hc hp hn e (lvl + 1) s sd hs (h4 rfl)) ?_
          filter_upwards [n1, m1, m2] with r x1 x2 x3
          rw [fuzzyS, x1]
          dsimp only
          rw [if_neg (fun hcn => hb (x2.2.1 hcn)), if_pos (x3.1.2 hl), if_pos rfl]
        | false =>
          rw [if_neg Bool.false_ne_true]
          refine st_intro (g := s) ?_ hs
          filter_upwards [n1, m1, m2] with r x1 x2 x3
          rw [fuzzyS, x1]
          dsimp only
          rw [if_neg (fun hcn => hb (x2.2.1 hcn)), if_pos (x3.1.2 hl), if_neg Bool.false_ne_true]
      · rw [if_neg hl] at h4 ⊢
        obtain ⟨h5, h6⟩ := h4
        obtain ⟨a, a1, a2, a3⟩ := smooth_stmts defEps eps hc hp hn t (lvl + 1) (fun r => { s r with s0 := setRow (s r).s0 lvl af (s r).σ }) { sd with s0 := setRow sd.s0 lvl af sd.σ }
          ⟨hs.1, row_tracks lvl af hs.2.1 hs.1, hs.2.2⟩ h5
        rw [a1]
        dsimp only
        set A : ℝ → FSt ℝ := fun r => stateOf (fuzzySs realOps (cv r) (sp r) defEps eps t (lvl + 1) { s r with s0 := setRow (s r).s0 lvl af (s r).σ }) with hA
        have hB : FTracks (fun r => { A r with s1 := setRow (A r).s1 lvl af (A r).σ, σ := setVars (A r).σ af ((A r).s0 lvl) }) u
            { a with s1 := setRow a.s1 lvl af a.σ, σ := setVars a.σ af (a.s0 lvl) } :=
          ⟨vars_tracks af a3.1 fun i => a3.2.1 lvl i, a3.2.1, row_tracks lvl af a3.2.2 a3.1⟩
        have hD : STracks (fun r => if he then fuzzySs realOps (cv r) (sp r) defEps eps e (lvl + 1) { A r with s1 := setRow (A r).s1 lvl af (A r).σ, σ := setVars (A r).σ af ((A r).s0 lvl) }
            else some { A r with s1 := setRow (A r).s1 lvl af (A r).σ, σ := setVars (A r).σ af ((A r).s0 lvl) }) u
            (if he then smoothSs cvd spd defEps eps e (lvl + 1) { a with s1 := setRow a.s1 lvl af a.σ, σ := setVars a.σ af (a.s0 lvl) }
            else some { a with s1 := setRow a.s1 lvl af a.σ, σ := setVars a.σ af (a.s0 lvl) }) := by
          cases he with
          | true =>
            simp only [if_true]
            exact smooth_stmts defEps eps hc hp hn e (lvl + 1) _ _ hB (h6 rfl)
          | false =>
            simp only [Bool.false_eq_true, if_false]
            exact st_intro (Eventually.of_forall fun _ => rfl) hB
        obtain ⟨d, d1, d2, d3⟩ := hD
        rw [d1]
        dsimp only
        set D : ℝ → FSt ℝ := fun r => stateOf (if he then fuzzySs realOps (cv r) (sp r) defEps eps e (lvl + 1)
            { A r with s1 := setRow (A r).s1 lvl af (A r).σ, σ := setVars (A r).σ af ((A r).s0 lvl) }
            else some { A r with s1 := setRow (A r).s1 lvl af (A r).σ, σ := setVars (A r).σ af ((A r).s0 lvl) }) with hDd
        refine st_intro (g := fun r => { D r with σ := setVars (D r).σ af (fun j => g r * (D r).s1 lvl j + (1 - g r) * (D r).σ j) }) ?_
          ⟨vars_tracks af d3.1 fun i => bin_tracks (op := .add) (bin_tracks (op := .mul) t1 (d3.2.2 lvl i) trivial)
            (bin_tracks (op := .mul) (bin_tracks (op := .sub) (lift_tracks 1 u) t1 trivial) (d3.1 i) trivial) trivial, d3.2⟩
        filter_upwards [n1, m1, m2, a2, d2] with r x1 x2 x3 x4 x5
        rw [fuzzyS, x1]
        dsimp only
        rw [if_neg (fun hcn => hb (x2.2.1 hcn)), if_neg (fun hcn => hl (x3.1.1 hcn)), x4]
        dsimp only
        rw [x5]
  | .collect b, lvl, s, sd, hs, h => by
    rw [smoothS]
    rw [SmoothS] at h
    refine st_congr (smooth_stmts defEps eps hc hp hn b lvl s sd hs h) (Eventually.of_forall fun t => by rw [fuzzyS])
private theorem smooth_stmts {cv : ℝ → Nat → ℝ} {sp : ℝ → Script.Sample ℝ} {u : ℝ} {cvd : Nat → Dual} {spd : Script.Sample Dual} (defEps eps : ℝ)
    (hc : ∀ i, Tracks (fun t => cv t i) u (cvd i)) (hp : Tracks (fun t => (sp t).spot) u spd.spot) (hn : Tracks (fun t => (sp t).numeraire) u spd.numeraire) :
    ∀ (ss : Stmts Nat ℝ) (lvl : Nat) (s : ℝ → FSt ℝ) (sd : FSt Dual), FTracks s u sd → SmoothSs cv sp defEps eps u ss lvl s →
      STracks (fun t => fuzzySs realOps (cv t) (sp t) defEps eps ss lvl (s t)) u (smoothSs cvd spd defEps eps ss lvl sd)
  | .nil, lvl, s, sd, hs, _ => by
    rw [smoothSs]
    exact st_intro (Eventually.of_forall fun t => by rw [fuzzySs]) hs
  | .cons st ss, lvl, s, sd, hs, h => by
    rw [SmoothSs] at h
    obtain ⟨b, b1, b2, b3⟩ := smooth_stmt defEps eps hc hp hn st lvl s sd hs h.1
    rw [smoothSs, b1]
    refine st_congr (smooth_stmts defEps eps hc hp hn ss lvl _ b b3 h.2) ?_
    filter_upwards [b2] with r hr
    rw [fuzzySs, hr]
    rfl
end

private theorem smooth_events {cv : ℝ → Nat → ℝ} {u : ℝ} {cvd : Nat → Dual} (defEps eps : ℝ) (hc : ∀ i, Tracks (fun t => cv t i) u (cvd i)) :
    ∀ (evs : List (Stmts Nat ℝ × (ℝ → Script.Sample ℝ) × Script.Sample Dual)),
      (∀ ev ∈ evs, Tracks (fun t => (ev.2.1 t).spot) u ev.2.2.spot ∧ Tracks (fun t => (ev.2.1 t).numeraire) u ev.2.2.numeraire) →
      ∀ (s : ℝ → FSt ℝ) (sd : FSt Dual), FTracks s u sd → Smooth cv defEps eps u (evs.map fun ev => (ev.1, ev.2.1)) s →
        STracks (fun t => fuzzyEvents (cv t) defEps eps (evs.map fun ev => (ev.1, ev.2.1 t)) (s t)) u (smoothEvents cvd defEps eps (evs.map fun ev => (ev.1, ev.2.2)) sd)
  | [], _, s, sd, hs, _ => st_intro (Eventually.of_forall fun _ => rfl) hs
  | ev :: evs, hp, s, sd, hs, h => by
    have h1 := hp ev List.mem_cons_self
    obtain ⟨b, b1, b2, b3⟩ := smooth_stmts defEps eps hc h1.1 h1.2 ev.1 0 s sd hs h.1
    rw [List.map_cons, smoothEvents, b1]
    refine st_congr (smooth_events defEps eps hc evs (fun e he => hp e (List.mem_cons_of_mem _ he)) _ b b3 h.2) ?_
    filter_upwards [b2] with r hr
    rw [List.map_cons, fuzzyEvents]
    dsimp only
    rw [hr]
    rfl

/-- C101: for any events on any samples, with any widths, the smoothed evaluator is defined near the point, and the derivatives that it computes with `Number_` are the derivatives of
what it computes with doubles, for every variable and every way in which spots, numeraires, constants and initial values depend on the parameter. -/
theorem C101_gradient (u : ℝ) (cv : ℝ → Nat → ℝ) (cvd : Nat → Dual) (hc : ∀ i, Tracks (fun t => cv t i) u (cvd i)) (defEps eps : ℝ)
    (evs : List (Stmts Nat ℝ × (ℝ → Script.Sample ℝ) × Script.Sample Dual))
    (hp : ∀ ev ∈ evs, Tracks (fun t => (ev.2.1 t).spot) u ev.2.2.spot ∧ Tracks (fun t => (ev.2.1 t).numeraire) u ev.2.2.numeraire)
    (s : ℝ → FSt ℝ) (sd : FSt Dual) (hs : ∀ i, Tracks (fun t => (s t).σ i) u (sd.σ i)) (hs0 : ∀ l i, Tracks (fun t => (s t).s0 l i) u (sd.s0 l i))
    (hs1 : ∀ l i, Tracks (fun t => (s t).s1 l i) u (sd.s1 l i)) (h : Smooth cv defEps eps u (evs.map fun ev => (ev.1, ev.2.1)) s) :
    ∃ (f : ℝ → FSt ℝ) (d : FSt Dual), (∀ᶠ t in 𝓝 u, fuzzyEvents (cv t) defEps eps (evs.map fun ev => (ev.1, ev.2.1 t)) (s t) = some (f t)) ∧
      smoothEvents cvd defEps eps (evs.map fun ev => (ev.1, ev.2.2)) sd = some d ∧ ∀ i, Tracks (fun t => (f t).σ i) u (d.σ i) := by
  obtain ⟨d, d1, d2, d3⟩ := smooth_events defEps eps hc evs hp s sd ⟨hs, hs0, hs1⟩ h
  exact ⟨_, d, d2, d1, d3.1⟩

/-- `IF spot() > K THEN x = spot() ENDIF` with a band of 10 around a strike of 100. -/
private noncomputable def bandDemo : Stmts Nat ℝ :=
  .cons (.ite (.cmp .sup (.bin .sub .spot (.constVar 0 100) none) ⟨-1, false, 0, 0⟩ {}) (.cons (.assign ⟨0, false⟩ .spot) .nil) false .nil [0] {}) .nil

private theorem bandDemo_run (t : ℝ) (h1 : 100 < t) (h2 : t < 102) :
    (fuzzySs realOps (fun _ => 100) ⟨t, 1⟩ 10 0.01 bandDemo 0 ⟨fun _ => 0, fun _ _ => 0, fun _ _ => 0⟩).map (fun s => s.σ 0) = some ((t - 95) / 10 * t) := by
  have hd : cspr (t - 100) 10 = some ((t - 100 + 10 / 2) / 10) := by
    rw [cspr, if_neg (by linarith), if_neg (by linarith), fdiv, if_neg (by norm_num)]
  have hc : fuzzyC realOps (fun _ => 100) ⟨t, 1⟩ 10 (fun _ => 0) (.cmp .sup (.bin .sub .spot (.constVar 0 100) none) ⟨-1, false, 0, 0⟩ {}) = some ((t - 100 + 10 / 2) / 10) := by
    rw [← hd]
    simp only [fuzzyC, evalE, evalBin, realOps, Bool.false_eq_true, if_false]
    rw [if_pos (by norm_num)]
  rw [bandDemo, fuzzySs, fuzzyS]
  simp only [hc]
  rw [if_neg (by norm_num; linarith), if_neg (by norm_num; linarith)]
  simp only [fuzzySs, fuzzyS, Bool.false_eq_true, if_false, Option.map_some, setVars, setRow, upd, evalE, List.mem_singleton, and_self, if_true, Option.some.injEq]
  ring

/-- Inside the band the derivative with respect to the spot is that of the blend: at 101 it is (2·101 − 95)/10. -/
example : ∃ d : FSt Dual, smoothEvents (fun _ => ⟨100, 0⟩) 10 0.01 [(bandDemo, ⟨⟨101, 1⟩, ⟨1, 0⟩⟩)] ⟨fun _ => ⟨0, 0⟩, fun _ _ => ⟨0, 0⟩, fun _ _ => ⟨0, 0⟩⟩ = some d ∧ (d.σ 0).d = 10.7 := by
  have hfam : ∀ t : ℝ, 100 < t → t < 102 →
      fuzzyC realOps (fun _ => 100) ⟨t, 1⟩ 10 (fun _ => 0) (.cmp .sup (.bin .sub .spot (.constVar 0 100) none) ⟨-1, false, 0, 0⟩ {}) = some ((t - 100 + 10 / 2) / 10) := by
    intro t h1 h2
    simp only [fuzzyC, evalE, evalBin, realOps, Bool.false_eq_true, if_false]
    rw [if_pos (by norm_num), cspr, if_neg (by linarith), if_neg (by linarith), fdiv, if_neg (by norm_num)]
  obtain ⟨f, d, h1, h2, h3⟩ := C101_gradient 101 (fun _ _ => 100) (fun _ => ⟨100, 0⟩) (fun _ => ⟨rfl, hasDerivAt_const _ _⟩) 10 0.01 [(bandDemo, fun t => ⟨t, 1⟩, ⟨⟨101, 1⟩, ⟨1, 0⟩⟩)]
    (by
      intro ev hev
      rw [List.mem_singleton] at hev
      subst hev
      exact ⟨⟨rfl, hasDerivAt_id _⟩, ⟨rfl, hasDerivAt_const _ _⟩⟩)
    (fun _ => ⟨fun _ => 0, fun _ _ => 0, fun _ _ => 0⟩) ⟨fun _ => ⟨0, 0⟩, fun _ _ => ⟨0, 0⟩, fun _ _ => ⟨0, 0⟩⟩ (fun _ => ⟨rfl, hasDerivAt_const _ _⟩) (fun _ _ => ⟨rfl, hasDerivAt_const _ _⟩)
    (fun _ _ => ⟨rfl, hasDerivAt_const _ _⟩)
    (by
      rw [List.map_singleton, Smooth]
      refine ⟨?_, trivial⟩
      rw [bandDemo, SmoothSs, SmoothS]
      have hu : (fuzzyC realOps (fun _ => 100) ⟨101, 1⟩ 10 (fun _ => 0) (.cmp .sup (.bin .sub .spot (.constVar 0 100) none) ⟨-1, false, 0, 0⟩ {})).getD 0 = ((101 : ℝ) - 100 + 10 / 2) / 10 := by
        rw [hfam 101 (by norm_num) (by norm_num)]; rfl
      refine ⟨⟨⟨⟨trivial, trivial, trivial⟩, ?_⟩, Or.inl ?_, Or.inl ?_, ?_⟩, trivial⟩
      · simp only [EdgeSettled, Bool.false_eq_true, if_false]
        rw [if_pos (by norm_num)]
        refine ⟨Or.inl ?_, Or.inl ?_, fun _ _ => by norm_num⟩
        · show (101 : ℝ) - 100 + 10 / 2 ≠ 0; norm_num
        · show (101 : ℝ) - 100 - 10 / 2 ≠ 0; norm_num
      · simp only [hu]; norm_num
      · simp only [hu]; norm_num
      · simp only [hu]
        rw [if_neg (by norm_num), if_neg (by norm_num)]
        exact ⟨⟨trivial, trivial⟩, fun h => absurd h Bool.false_ne_true⟩)
  refine ⟨d, h2, ?_⟩
  have h4 : HasDerivAt (fun t => (f t).σ 0) 10.7 101 := by
    have hq : HasDerivAt (fun t : ℝ => (t - 95) / 10 * t) (1 / 10 * 101 + (101 - 95) / 10 * 1) 101 := (((hasDerivAt_id (101 : ℝ)).sub_const 95).div_const 10).mul (hasDerivAt_id 101)
    refine (hq.congr_of_eventuallyEq ?_).congr_deriv (by norm_num)
    filter_upwards [h1, lt_mem_nhds (show (100 : ℝ) < 101 by norm_num), gt_mem_nhds (show (101 : ℝ) < 102 by norm_num)] with t e1 e2 e3
    have e4 := bandDemo_run t e2 e3
    rw [List.map_singleton, fuzzyEvents] at e1
    cases hr : fuzzySs realOps (fun _ => 100) ⟨t, 1⟩ 10 0.01 bandDemo 0 ⟨fun _ => 0, fun _ _ => 0, fun _ _ => 0⟩ with
    | none => rw [hr] at e4; exact absurd e4 (by simp)
    | some st =>
      rw [hr] at e1 e4
      simp only [Option.bind_some, fuzzyEvents, Option.some.injEq] at e1
      simp only [Option.map_some, Option.some.injEq] at e4
      rw [← e1]; exact e4
  exact (h3 0).2.unique h4

end Dal
