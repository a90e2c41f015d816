import Verif.Aad.AdjointProps
import Verif.Script.GradientModel
import Verif.Sim.TapeModel

/-! # Lemmas on what a simulation records: the numbers of the tape as pairs of a value and a derivative -/

namespace Dal.TapeRun

open Dal.Adj Dal.Script Dal.Models

/-- The derivatives of the numbers of a tape in the input at position `i`. -/
noncomputable def tansFrom (i : Nat) : List Node → Nat → (Nat → ℝ) → Nat → ℝ
  | [], _, D => D
  | nd :: ns, k, D => tansFrom i ns (k + 1) (Function.update D k (if k = i then 1 else tangent D nd))

/-- The derivatives of the numbers of a tape in the input at position `i`. -/
noncomputable def tans (i : Nat) (ns : List Node) : Nat → ℝ := tansFrom i ns 0 fun _ => 0

theorem tansFrom_append (i : Nat) : ∀ (ns : List Node) (nd : Node) (k : Nat) (D : Nat → ℝ),
    tansFrom i (ns ++ [nd]) k D = Function.update (tansFrom i ns k D) (k + ns.length) (if k + ns.length = i then 1 else tangent (tansFrom i ns k D) nd) := by
  intro ns
  induction ns with
  | nil => intro nd k D; rfl
  | cons n0 ns ih =>
    intro nd k D
    rw [List.cons_append, tansFrom, ih, tansFrom, List.length_cons, show k + 1 + ns.length = k + (ns.length + 1) by omega]

theorem tans_append (i : Nat) (ns : List Node) (nd : Node) :
    tans i (ns ++ [nd]) = Function.update (tans i ns) ns.length (if ns.length = i then 1 else tangent (tans i ns) nd) := by
  rw [tans, tansFrom_append, Nat.zero_add]; rfl

/-- A number of the tape as a value with a derivative. -/
noncomputable def Tape.dual (i : Nat) (t : Tape) (p : Nat) : Dual := ⟨t.env p, tans i t.nodes p⟩

/-- Arguments come before. -/
def Back (ns : List Node) : Prop := ∀ (k : Nat) (nd : Node), ns[k]? = some nd → ∀ a ∈ nd, a.1 < k

theorem back_append {ns : List Node} {nd : Node} (h : Back ns) (hn : ∀ a ∈ nd, a.1 < ns.length) : Back (ns ++ [nd]) := by
  intro k n hk a ha
  by_cases hlt : k < ns.length
  · rw [List.getElem?_append_left hlt] at hk
    exact h k n hk a ha
  · rw [List.getElem?_append_right (by omega)] at hk
    have : k - ns.length = 0 := by
      by_contra hc
      rw [List.getElem?_eq_none (by simp; omega)] at hk
      exact absurd hk (by simp)
    rw [this] at hk
    simp only [List.getElem?_cons_zero, Option.some.injEq] at hk
    subst hk
    have := hn a ha
    omega

/-- A tape with more numbers. -/
structure Ext (t t' : Tape) : Prop where
  pre : t.nodes <+: t'.nodes
  env : ∀ k, k < t.nodes.length → t'.env k = t.env k
  tan : ∀ i k, k < t.nodes.length → tans i t'.nodes k = tans i t.nodes k
  back : Back t.nodes → Back t'.nodes

theorem Ext.refl (t : Tape) : Ext t t := ⟨List.prefix_rfl, fun _ _ => rfl, fun _ _ _ => rfl, fun h => h⟩

theorem Ext.le {t t' : Tape} (h : Ext t t') : t.nodes.length ≤ t'.nodes.length := h.pre.length_le

theorem Ext.trans {a b c : Tape} (h : Ext a b) (h' : Ext b c) : Ext a c :=
  ⟨h.pre.trans h'.pre, fun k hk => (h'.env k (lt_of_lt_of_le hk h.le)).trans (h.env k hk), fun i k hk => (h'.tan i k (lt_of_lt_of_le hk h.le)).trans (h.tan i k hk),
    fun hb => h'.back (h.back hb)⟩

theorem Ext.dual {t t' : Tape} (h : Ext t t') (i : Nat) {k : Nat} (hk : k < t.nodes.length) : t'.dual i k = t.dual i k := by
  rw [Tape.dual, Tape.dual, h.env k hk, h.tan i k hk]

/-- What recording one number does. -/
structure Made (i : Nat) (t : Tape) (r : Tape × Nat) (v : Dual) : Prop where
  ext : Ext t r.1
  pos : r.2 < r.1.nodes.length
  dual : r.1.dual i r.2 = v

theorem leaf_ext (t : Tape) (v : ℝ) : Ext t (t.leaf v).1 :=
  ⟨List.prefix_append _ _, fun k hk => Function.update_of_ne (by omega) _ _,
    fun i k hk => by show tans i (t.nodes ++ [[]]) k = _; rw [tans_append, Function.update_of_ne (by omega)],
    fun h => back_append h (by simp)⟩

theorem leaf_made (i : Nat) (t : Tape) (v : ℝ) (hi : i < t.nodes.length) : Made i t (t.leaf v) (Script.lift v) := by
  refine ⟨leaf_ext t v, by simp [Tape.leaf], ?_⟩
  rw [Tape.dual, Script.lift]
  congr 1
  · exact Function.update_self ..
  · show tans i (t.nodes ++ [[]]) t.nodes.length = 0
    rw [tans_append, Function.update_self, if_neg (by omega)]
    simp [tangent]

theorem expr_ext (lib : Lib) (t : Tape) (e : Ex) (he : Ex.Before t.nodes.length e) : Ext t (t.expr lib e).1 :=
  ⟨List.prefix_append _ _, fun k hk => Function.update_of_ne (by omega) _ _,
    fun i k hk => by show tans i (t.nodes ++ [_]) k = _; rw [tans_append, Function.update_of_ne (by omega)],
    fun h => back_append h (push_before lib t.env e 1 he)⟩

theorem expr_made (i : Nat) (lib : Lib) (t : Tape) (e : Ex) (hi : i < t.nodes.length) (he : Ex.Before t.nodes.length e) :
    Made i t (t.expr lib e) ⟨e.value lib t.env, tangent (tans i t.nodes) (e.push lib t.env 1)⟩ := by
  refine ⟨expr_ext lib t e he, by simp [Tape.expr], ?_⟩
  rw [Tape.dual]
  congr 1
  · exact Function.update_self ..
  · show tans i (t.nodes ++ [_]) t.nodes.length = _
    rw [tans_append, Function.update_self, if_neg (by omega)]

theorem made_of_eq {i : Nat} {t : Tape} {r : Tape × Nat} {v w : Dual} (h : Made i t r v) (hv : v.v = w.v) (hd : v.d = w.d) : Made i t r w := by
  have : v = w := Dual.ext hv hd
  rwa [← this]

theorem tBin_made (lib : Lib) (i : Nat) (op : Op) :
    (tBin lib op = none ∧ semBin dualOps op = none) ∨ ∃ f g, tBin lib op = some f ∧ semBin dualOps op = some g ∧
      ∀ t a b, i < t.nodes.length → a < t.nodes.length → b < t.nodes.length →
        Made i t (f t a b) (g (t.dual i a) (t.dual i b)) ∧ ∀ m, m ≤ t.nodes.length → m ≤ a → m ≤ b → m ≤ (f t a b).2 := by
  cases op <;> first
    | exact Or.inl ⟨rfl, rfl⟩
    | (refine Or.inr ⟨_, _, rfl, rfl, fun t a b hi ha hb => ?_⟩
       first
        | (refine ⟨made_of_eq (expr_made i lib t _ hi ⟨ha, hb⟩) rfl ?_, fun m hm _ _ => hm⟩
           simp [Ex.push, Ex.value, tangent, BOp.left, BOp.right, BOp.eval, dualOps, Tape.dual]
           done)
        | (refine ⟨made_of_eq (expr_made i lib t _ hi ⟨ha, hb⟩) rfl ?_, fun m hm _ _ => hm⟩
           simp [Ex.push, Ex.value, tangent, BOp.left, BOp.right, BOp.eval, dualOps, Tape.dual]
           ring)
        | (refine ⟨⟨Ext.refl t, ?_, ?_⟩, fun m hm h1 h2 => by dsimp only; split_ifs <;> assumption⟩
           · dsimp only; split_ifs <;> assumption
           · dsimp only
             simp only [dualOps, decide_eq_true_eq, Tape.dual]
             split_ifs <;> rfl))

theorem tConst_made (lib : Lib) (i : Nat) (op : Op) :
    (tConst lib op = none ∧ semConst dualOps op = none) ∨ ∃ f g, tConst lib op = some f ∧ semConst dualOps op = some g ∧
      ∀ t c x, i < t.nodes.length → x < t.nodes.length →
        Made i t (f t c x) (g (Script.lift c) (t.dual i x)) ∧ ∀ m, m ≤ t.nodes.length → m ≤ x → m ≤ (f t c x).2 := by
  have key : ∀ (t : Tape) (c : ℝ) (x : Nat) (q : Prop) [Decidable q], i < t.nodes.length → x < t.nodes.length →
      Made i t ((t.leaf c).1, if q then (t.leaf c).2 else x) (if q then Script.lift c else t.dual i x) := by
    intro t c x q _ hi hx
    have h := leaf_made i t c hi
    by_cases hq : q
    · simp only [if_pos hq]; exact h
    · simp only [if_neg hq]
      exact ⟨h.ext, lt_of_lt_of_le hx h.ext.le, h.ext.dual i hx⟩
  cases op <;> first
    | exact Or.inl ⟨rfl, rfl⟩
    | (refine Or.inr ⟨_, _, rfl, rfl, fun t c x hi hx => ?_⟩
       first
        | (refine ⟨made_of_eq (expr_made i lib t _ hi hx) rfl ?_, fun m hm _ => hm⟩
           simp [Ex.push, Ex.value, tangent, UOp.der, UOp.eval, dualOps, Tape.dual, Script.lift]
           done)
        | (refine ⟨made_of_eq (expr_made i lib t _ hi hx) rfl ?_, fun m hm _ => hm⟩
           simp [Ex.push, Ex.value, tangent, UOp.der, UOp.eval, dualOps, Tape.dual, Script.lift]
           ring)
        | (refine ⟨?_, fun m hm h1 => by dsimp only; split_ifs <;> assumption⟩
           have h := key t c x (t.env x < c) hi hx
           simpa [dualOps, Tape.dual, Script.lift] using h)
        | (refine ⟨?_, fun m hm h1 => by dsimp only; split_ifs <;> assumption⟩
           have h := key t c x (c < t.env x) hi hx
           simpa [dualOps, Tape.dual, Script.lift] using h))

theorem tUn_made (lib : Lib) (i : Nat) (op : Op) :
    (tUn lib op = none ∧ semUn dualOps op = none) ∨ ∃ f g, tUn lib op = some f ∧ semUn dualOps op = some g ∧
      ∀ t x, i < t.nodes.length → x < t.nodes.length → Made i t (f t x) (g (t.dual i x)) ∧ t.nodes.length ≤ (f t x).2 := by
  cases op <;> first
    | exact Or.inl ⟨rfl, rfl⟩
    | (refine Or.inr ⟨_, _, rfl, rfl, fun t x hi hx => ?_⟩
       refine ⟨made_of_eq (expr_made i lib t _ hi hx) ?_ ?_, le_refl _⟩ <;>
       simp [Ex.push, Ex.value, tangent, UOp.der, UOp.eval, dualOps, Tape.dual])

theorem tCmp_same (i : Nat) (op : Op) :
    (tCmp op = none ∧ semCmp dualOps op = none) ∨ ∃ f g, tCmp op = some f ∧ semCmp dualOps op = some g ∧ ∀ (t : Tape) x, f (t.env x) = g (t.dual i x) := by
  cases op <;> first
    | exact Or.inl ⟨rfl, rfl⟩
    | exact Or.inr ⟨_, _, rfl, rfl, fun t x => rfl⟩

theorem tPays_made (lib : Lib) (i : Nat) (t : Tape) (x a n : Nat) (hi : i < t.nodes.length) (hx : x < t.nodes.length) (ha : a < t.nodes.length) (hn : n < t.nodes.length) :
    Made i t (tPays lib t x a n) (dualOps.add (t.dual i x) (dualOps.div (t.dual i a) (t.dual i n))) := by
  refine made_of_eq (expr_made i lib t _ hi ⟨hx, ha, hn⟩) rfl ?_
  simp [Ex.push, Ex.value, tangent, BOp.left, BOp.right, BOp.eval, dualOps, Tape.dual]

/-! ### Runs -/

/-- The state with its numbers as values with derivatives. -/
noncomputable def toDual (i : Nat) (t : Tape) (s : RunSt Nat) : RunSt Dual := ⟨s.d.map (t.dual i), s.b, fun k => t.dual i (s.σ k)⟩

/-- A sample with its numbers as values with derivatives. -/
noncomputable def sampleDual (i : Nat) (t : Tape) (sp : Script.Sample Nat) : Script.Sample Dual := ⟨t.dual i sp.spot, t.dual i sp.numeraire⟩

/-- All numbers are on the tape, from position `m` on. -/
structure On (m : Nat) (t : Tape) (s : RunSt Nat) : Prop where
  d : ∀ p ∈ s.d, p < t.nodes.length
  σ : ∀ k, s.σ k < t.nodes.length
  dlow : ∀ p ∈ s.d, m ≤ p
  σlow : ∀ k, m ≤ s.σ k

/-- The numbers of a sample are on the tape. -/
def SampleOn (t : Tape) (sp : Script.Sample Nat) : Prop := sp.spot < t.nodes.length ∧ sp.numeraire < t.nodes.length

theorem SampleOn.ext {t t' : Tape} {sp : Script.Sample Nat} (h : SampleOn t sp) (e : Ext t t') : SampleOn t' sp :=
  ⟨lt_of_lt_of_le h.1 e.le, lt_of_lt_of_le h.2 e.le⟩

theorem sampleDual_ext {t t' : Tape} {sp : Script.Sample Nat} (h : SampleOn t sp) (e : Ext t t') (i : Nat) : sampleDual i t' sp = sampleDual i t sp := by
  rw [sampleDual, sampleDual, e.dual i h.1, e.dual i h.2]

theorem map_ext {t t' : Tape} {l : List Nat} (h : ∀ p ∈ l, p < t.nodes.length) (e : Ext t t') (i : Nat) : l.map (t'.dual i) = l.map (t.dual i) :=
  List.map_congr_left fun p hp => e.dual i (h p hp)

theorem σ_ext {t t' : Tape} {σ : Nat → Nat} (h : ∀ k, σ k < t.nodes.length) (e : Ext t t') (i : Nat) : (fun k => t'.dual i (σ k)) = fun k => t.dual i (σ k) :=
  funext fun k => e.dual i (h k)

theorem constAt_map (ns : List Word) (cs : List ℝ) (j : Nat) : constAt ns (cs.map Script.lift) j = (constAt ns cs j).map Script.lift := by
  rw [constAt, constAt]
  cases argAt ns j with
  | none => rfl
  | some k => simp

theorem upd_dual {t : Tape} (i : Nat) (σ : Nat → Nat) (k p : Nat) : (fun j => t.dual i (upd σ k p j)) = upd (fun j => t.dual i (σ j)) k (t.dual i p) := by
  funext j
  simp only [upd]
  split <;> rfl

theorem upd_low {σ : Nat → Nat} {m k p : Nat} (h : ∀ j, m ≤ σ j) (hp : m ≤ p) : ∀ j, m ≤ upd σ k p j := by
  intro j
  simp only [upd]
  split
  · exact hp
  · exact h j

theorem upd_lt {σ : Nat → Nat} {n k p : Nat} (h : ∀ j, σ j < n) (hp : p < n) : ∀ j, upd σ k p j < n := by
  intro j
  simp only [upd]
  split
  · exact hp
  · exact h j

/-- What a step or a run leaves. -/
structure Kept (m : Nat) (t : Tape) (t' : Tape) (s' : RunSt Nat) : Prop where
  ext : Ext t t'
  on : On m t' s'

private theorem push_one {i m : Nat} {t : Tape} {s : RunSt Nat} (h : On m t s) {r : Tape × Nat} {v : Dual} (hm : Made i t r v) (hl : m ≤ r.2) {d : List Nat}
    (hd : ∀ p ∈ d, p < t.nodes.length) (hdl : ∀ p ∈ d, m ≤ p) :
    toDual i r.1 { s with d := r.2 :: d } = { toDual i t s with d := v :: d.map (t.dual i) } ∧ Kept m t r.1 { s with d := r.2 :: d } := by
  refine ⟨?_, hm.ext, ?_, fun k => lt_of_lt_of_le (h.σ k) hm.ext.le, ?_, h.σlow⟩
  · simp only [toDual, List.map_cons, hm.dual, map_ext hd hm.ext i, σ_ext h.σ hm.ext i]
  · intro p hp
    rcases List.mem_cons.1 hp with rfl | hp
    · exact hm.pos
    · exact lt_of_lt_of_le (hd p hp) hm.ext.le
  · intro p hp
    rcases List.mem_cons.1 hp with rfl | hp
    · exact hl
    · exact hdl p hp

private theorem store_one {i m : Nat} {t : Tape} {s : RunSt Nat} (h : On m t s) {r : Tape × Nat} {v : Dual} (hm : Made i t r v) (hl : m ≤ r.2) {d : List Nat}
    (hd : ∀ p ∈ d, p < t.nodes.length) (hdl : ∀ p ∈ d, m ≤ p) (k : Nat) :
    toDual i r.1 { s with d := d, σ := upd s.σ k r.2 } = { toDual i t s with d := d.map (t.dual i), σ := upd (fun j => t.dual i (s.σ j)) k v } ∧
      Kept m t r.1 { s with d := d, σ := upd s.σ k r.2 } := by
  refine ⟨?_, hm.ext, fun p hp => lt_of_lt_of_le (hd p hp) hm.ext.le, upd_lt (fun j => lt_of_lt_of_le (h.σ j) hm.ext.le) hm.pos, hdl, upd_low h.σlow hl⟩
  simp only [toDual, upd_dual, hm.dual, map_ext hd hm.ext i, σ_ext h.σ hm.ext i]

theorem made_self (i : Nat) (t : Tape) {p : Nat} (hp : p < t.nodes.length) : Made i t (t, p) (t.dual i p) := ⟨Ext.refl t, hp, rfl⟩

theorem made_trans {i : Nat} {t t' : Tape} {r : Tape × Nat} {v : Dual} (e : Ext t t') (h : Made i t' r v) : Made i t r v := ⟨e.trans h.ext, h.pos, h.dual⟩

/-- One instruction on the tape is the instruction on values with derivatives. -/
theorem tstep_dual (lib : Lib) (i : Nat) (ns : List Word) (cs : List ℝ) (sp : Script.Sample Nat) (j : Nat) (op : Op) (t : Tape) (s : RunSt Nat) (hi : i < t.nodes.length)
    (m : Nat) (hmt : m ≤ t.nodes.length) (hs : On m t s) (hsp : SampleOn t sp) (hspl : m ≤ sp.spot) :
    step dualOps ns (cs.map Script.lift) (sampleDual i t sp) j op (toDual i t s) = (tstep lib ns cs sp j op t s).map (fun r => (r.1, toDual i r.2.1 r.2.2)) ∧
      ∀ r, tstep lib ns cs sp j op t s = some r → Kept m t r.2.1 r.2.2 := by
  unfold step tstep
  rcases tBin_made lib i op with ⟨e1, e2⟩ | ⟨f, g, e1, e2, hfg⟩
  swap
  · rw [e1, e2]
    obtain ⟨d, b, σ⟩ := s
    match d, hs with
    | [], _ => exact ⟨rfl, fun r hr => by simp at hr⟩
    | [_], _ => exact ⟨rfl, fun r hr => by simp at hr⟩
    | y :: x :: d, hs =>
      have hm := hfg t x y hi (hs.d x (by simp)) (hs.d y (by simp))
      obtain ⟨h1, h2⟩ := push_one hs hm.1 (hm.2 m hmt (hs.dlow x (by simp)) (hs.dlow y (by simp))) (d := d) (fun p hp => hs.d p (by simp [hp])) (fun p hp => hs.dlow p (by simp [hp]))
      refine ⟨?_, ?_⟩
      · simp only [Option.map_some]
        rw [h1]; rfl
      · intro r hr
        injection hr with hr
        subst hr
        exact h2
  rw [e1, e2]
  dsimp only
  clear e1 e2
  rcases tConst_made lib i op with ⟨e1, e2⟩ | ⟨f, g, e1, e2, hfg⟩
  swap
  · rw [e1, e2, constAt_map]
    obtain ⟨d, b, σ⟩ := s
    cases hc : constAt ns cs (j + 1) with
    | none =>
      dsimp only
      refine ⟨?_, fun r hr => ?_⟩
      · cases d <;> rfl
      · cases d <;> simp at hr
    | some c =>
    match d, hs with
    | [], _ => exact ⟨rfl, fun r hr => by simp at hr⟩
    | x :: d, hs =>
      have hm := hfg t c x hi (hs.d x (by simp))
      obtain ⟨h1, h2⟩ := push_one hs hm.1 (hm.2 m hmt (hs.dlow x (by simp))) (d := d) (fun p hp => hs.d p (by simp [hp])) (fun p hp => hs.dlow p (by simp [hp]))
      refine ⟨?_, ?_⟩
      · simp only [Option.map_some]
        rw [h1]; rfl
      · intro r hr
        injection hr with hr
        subst hr
        exact h2
  rw [e1, e2]
  dsimp only
  clear e1 e2
  rcases tUn_made lib i op with ⟨e1, e2⟩ | ⟨f, g, e1, e2, hfg⟩
  swap
  · rw [e1, e2]
    obtain ⟨d, b, σ⟩ := s
    match d, hs with
    | [], _ => exact ⟨rfl, fun r hr => by simp at hr⟩
    | x :: d, hs =>
      have hm := hfg t x hi (hs.d x (by simp))
      obtain ⟨h1, h2⟩ := push_one hs hm.1 (hmt.trans hm.2) (d := d) (fun p hp => hs.d p (by simp [hp])) (fun p hp => hs.dlow p (by simp [hp]))
      refine ⟨?_, ?_⟩
      · simp only [Option.map_some]
        rw [h1]; rfl
      · intro r hr
        injection hr with hr
        subst hr
        exact h2
  rw [e1, e2]
  dsimp only
  clear e1 e2
  rcases tCmp_same i op with ⟨e1, e2⟩ | ⟨f, g, e1, e2, hfg⟩
  swap
  · rw [e1, e2]
    obtain ⟨d, b, σ⟩ := s
    match d, hs with
    | [], _ => exact ⟨rfl, fun r hr => by simp at hr⟩
    | x :: d, hs =>
      simp only [toDual, List.map_cons, ← hfg]
      cases hb : b.push (f (t.env x)) with
      | none => exact ⟨rfl, fun r hr => by simp at hr⟩
      | some b' =>
        refine ⟨rfl, fun r hr => ?_⟩
        simp only [Option.map_some, Option.some.injEq] at hr
        subst hr
        exact ⟨Ext.refl t, fun p hp => hs.d p (by simp [hp]), hs.σ, fun p hp => hs.dlow p (by simp [hp]), hs.σlow⟩
  rw [e1, e2]
  dsimp only
  clear e1 e2
  cases op <;> first | exact ⟨rfl, fun r hr => (Option.some_ne_none r (Eq.symm hr)).elim⟩ | skip
  case spot =>
    refine ⟨rfl, fun r hr => ?_⟩
    injection hr with hr
    subst hr
    exact (push_one hs (made_self i t hsp.1) hspl hs.d hs.dlow).2
  case var =>
    dsimp only
    cases argAt ns (j + 1) with
    | none => exact ⟨rfl, fun r hr => by simp at hr⟩
    | some k =>
      refine ⟨rfl, fun r hr => ?_⟩
      simp only [Option.map_some, Option.some.injEq] at hr
      subst hr
      exact (push_one hs (made_self i t (hs.σ k)) (hs.σlow k) hs.d hs.dlow).2
  case const =>
    dsimp only
    rw [constAt_map]
    cases constAt ns cs (j + 1) with
    | none => exact ⟨rfl, fun r hr => by simp at hr⟩
    | some c =>
      obtain ⟨h1, h2⟩ := push_one hs (leaf_made i t c hi) hmt hs.d hs.dlow
      refine ⟨?_, fun r hr => ?_⟩
      · simp only [Option.map_some]; rw [h1]; rfl
      simp only [Option.map_some, Option.some.injEq] at hr
      subst hr
      exact h2
  case constVar =>
    dsimp only
    rw [constAt_map]
    cases constAt ns cs (j + 1) with
    | none => exact ⟨rfl, fun r hr => by simp at hr⟩
    | some c =>
      obtain ⟨h1, h2⟩ := push_one hs (leaf_made i t c hi) hmt hs.d hs.dlow
      refine ⟨?_, fun r hr => ?_⟩
      · simp only [Option.map_some]; rw [h1]; rfl
      simp only [Option.map_some, Option.some.injEq] at hr
      subst hr
      exact h2
  case assign =>
    obtain ⟨d, b, σ⟩ := s
    dsimp only
    cases argAt ns (j + 1) with
    | none => exact ⟨by cases d <;> rfl, fun r hr => by cases d <;> simp at hr⟩
    | some k =>
      match d, hs with
      | [], _ => exact ⟨rfl, fun r hr => by simp at hr⟩
      | x :: d, hs =>
        obtain ⟨h1, h2⟩ := store_one hs (made_self i t (hs.d x (by simp))) (hs.dlow x (by simp)) (d := d) (fun p hp => hs.d p (by simp [hp])) (fun p hp => hs.dlow p (by simp [hp])) k
        refine ⟨?_, fun r hr => ?_⟩
        · simp only [Option.map_some]
          rw [h1]; rfl
        injection hr with hr
        subst hr
        exact h2
  case assignConst =>
    dsimp only
    rw [constAt_map]
    cases constAt ns cs (j + 1) with
    | none => exact ⟨rfl, fun r hr => by simp at hr⟩
    | some c =>
      cases argAt ns (j + 2) with
      | none => exact ⟨rfl, fun r hr => by simp at hr⟩
      | some k =>
        obtain ⟨h1, h2⟩ := store_one hs (leaf_made i t c hi) hmt hs.d hs.dlow k
        refine ⟨?_, fun r hr => ?_⟩
        · simp only [Option.map_some]
          rw [h1]; rfl
        injection hr with hr
        subst hr
        exact h2
  case pays =>
    obtain ⟨d, b, σ⟩ := s
    dsimp only
    cases argAt ns (j + 1) with
    | none => exact ⟨by cases d <;> rfl, fun r hr => by cases d <;> simp at hr⟩
    | some k =>
      match d, hs with
      | [], _ => exact ⟨rfl, fun r hr => by simp at hr⟩
      | x :: d, hs =>
        obtain ⟨h1, h2⟩ := store_one hs (tPays_made lib i t (σ k) x sp.numeraire hi (hs.σ k) (hs.d x (by simp)) hsp.2) hmt (d := d) (fun p hp => hs.d p (by simp [hp])) (fun p hp => hs.dlow p (by simp [hp])) k
        refine ⟨?_, fun r hr => ?_⟩
        · simp only [Option.map_some]
          rw [h1]; rfl
        injection hr with hr
        subst hr
        exact h2
  case paysConst =>
    dsimp only
    rw [constAt_map]
    cases constAt ns cs (j + 1) with
    | none => exact ⟨rfl, fun r hr => by simp at hr⟩
    | some c =>
      cases argAt ns (j + 2) with
      | none => exact ⟨rfl, fun r hr => by simp at hr⟩
      | some k =>
        have hl := leaf_made i t c hi
        have hm := tPays_made lib i (t.leaf c).1 (s.σ k) (t.leaf c).2 sp.numeraire (lt_of_lt_of_le hi hl.ext.le) (lt_of_lt_of_le (hs.σ k) hl.ext.le) hl.pos
          (lt_of_lt_of_le hsp.2 hl.ext.le)
        rw [hl.ext.dual i (hs.σ k), hl.ext.dual i hsp.2, hl.dual] at hm
        obtain ⟨h1, h2⟩ := store_one hs (made_trans hl.ext hm) (hmt.trans hl.ext.le) hs.d hs.dlow k
        refine ⟨?_, fun r hr => ?_⟩
        · simp only [Option.map_some]
          rw [h1]; rfl
        injection hr with hr
        subst hr
        exact h2
  case iff =>
    obtain ⟨d, ⟨items, u⟩, σ⟩ := s
    dsimp only [toDual]
    match items with
    | [] => exact ⟨rfl, fun r hr => by simp at hr⟩
    | true :: r =>
      refine ⟨rfl, fun r hr => ?_⟩
      injection hr with hr
      subst hr
      exact ⟨Ext.refl t, hs.d, hs.σ, hs.dlow, hs.σlow⟩
    | false :: r =>
      dsimp only
      cases argAt ns (j + 1) with
      | none => exact ⟨rfl, fun r hr => by simp at hr⟩
      | some k =>
        refine ⟨rfl, fun r hr => ?_⟩
        injection hr with hr
        subst hr
        exact ⟨Ext.refl t, hs.d, hs.σ, hs.dlow, hs.σlow⟩
  case and =>
    obtain ⟨d, ⟨items, u⟩, σ⟩ := s
    dsimp only [toDual]
    match items with
    | [] => exact ⟨rfl, fun r hr => by simp at hr⟩
    | [_] => exact ⟨rfl, fun r hr => by simp at hr⟩
    | x :: y :: r =>
      refine ⟨rfl, fun r hr => ?_⟩
      injection hr with hr
      subst hr
      exact ⟨Ext.refl t, hs.d, hs.σ, hs.dlow, hs.σlow⟩
  case or =>
    obtain ⟨d, ⟨items, u⟩, σ⟩ := s
    dsimp only [toDual]
    match items with
    | [] => exact ⟨rfl, fun r hr => by simp at hr⟩
    | [_] => exact ⟨rfl, fun r hr => by simp at hr⟩
    | x :: y :: r =>
      refine ⟨rfl, fun r hr => ?_⟩
      injection hr with hr
      subst hr
      exact ⟨Ext.refl t, hs.d, hs.σ, hs.dlow, hs.σlow⟩
  case not =>
    obtain ⟨d, ⟨items, u⟩, σ⟩ := s
    dsimp only [toDual]
    match items with
    | [] => exact ⟨rfl, fun r hr => by simp at hr⟩
    | x :: r =>
      refine ⟨rfl, fun r hr => ?_⟩
      injection hr with hr
      subst hr
      exact ⟨Ext.refl t, hs.d, hs.σ, hs.dlow, hs.σlow⟩
  case true' =>
    dsimp only [toDual]
    cases s.b.push true with
    | none => exact ⟨rfl, fun r hr => by simp at hr⟩
    | some b =>
      refine ⟨rfl, fun r hr => ?_⟩
      injection hr with hr
      subst hr
      exact ⟨Ext.refl t, hs.d, hs.σ, hs.dlow, hs.σlow⟩
  case false' =>
    dsimp only [toDual]
    cases s.b.push false with
    | none => exact ⟨rfl, fun r hr => by simp at hr⟩
    | some b =>
      refine ⟨rfl, fun r hr => ?_⟩
      injection hr with hr
      subst hr
      exact ⟨Ext.refl t, hs.d, hs.σ, hs.dlow, hs.σlow⟩

theorem act_step {D : Type} {o : Ops D} {ns : List Word} {cs : List D} {sp : Script.Sample D} {j : Nat} {s : RunSt D} {op : Op} (hw : ns[j]? = some (.op op)) (hop : op ≠ .ifElse) :
    act o ns cs sp j s = (step o ns cs sp j op s).map fun r => .goto r.1 r.2 := by
  unfold act
  rw [hw]
  cases op <;> first | rfl | exact absurd rfl hop

theorem tact_step {lib : Lib} {ns : List Word} {cs : List ℝ} {sp : Script.Sample Nat} {j : Nat} {t : Tape} {s : RunSt Nat} {op : Op} (hw : ns[j]? = some (.op op)) (hop : op ≠ .ifElse) :
    tact lib ns cs sp j t s = (tstep lib ns cs sp j op t s).map fun r => .goto r.1 r.2.1 r.2.2 := by
  unfold tact
  rw [hw]
  cases op <;> first | rfl | exact absurd rfl hop

/-- A nested run of the tape is the run on values with derivatives. -/
theorem trun_dual (lib : Lib) (i m : Nat) (ns : List Word) (cs : List ℝ) (sp : Script.Sample Nat) : ∀ (fuel n j : Nat) (t : Tape) (s : RunSt Nat), i < t.nodes.length → m ≤ t.nodes.length → On m t s → SampleOn t sp → m ≤ sp.spot →
    run dualOps ns (cs.map Script.lift) (sampleDual i t sp) fuel n j (toDual i t s) = (trun lib ns cs sp fuel n j t s).map (fun r => toDual i r.1 r.2) ∧
      ∀ r, trun lib ns cs sp fuel n j t s = some r → Kept m t r.1 r.2 := by
  intro fuel
  induction fuel with
  | zero => intro n j t s _ _ _ _ _; exact ⟨rfl, fun r hr => by simp [trun] at hr⟩
  | succ fuel ih =>
    intro n j t s hi hmt hs hsp hspl
    rw [run, trun]
    by_cases hj : j < n
    swap
    · rw [if_neg hj, if_neg hj]
      refine ⟨rfl, fun r hr => ?_⟩
      injection hr with hr
      subst hr
      exact ⟨Ext.refl t, hs⟩
    rw [if_pos hj, if_pos hj]
    -- the instruction
    have go : ∀ (k : Nat) (t' : Tape) (s' : RunSt Nat), Kept m t t' s' →
        (if (toDual i t' s').fits then run dualOps ns (cs.map Script.lift) (sampleDual i t sp) fuel n k (toDual i t' s') else none) =
          (if s'.fits then trun lib ns cs sp fuel n k t' s' else none).map (fun r => toDual i r.1 r.2) ∧
        ∀ r, (if s'.fits then trun lib ns cs sp fuel n k t' s' else none) = some r → Kept m t r.1 r.2 := by
      intro k t' s' hk
      have hf : (toDual i t' s').fits ↔ s'.fits := by simp [toDual, RunSt.fits]
      obtain ⟨h1, h2⟩ := ih n k t' s' (lt_of_lt_of_le hi hk.ext.le) (hmt.trans hk.ext.le) hk.on (hsp.ext hk.ext) hspl
      rw [sampleDual_ext hsp hk.ext i] at h1
      by_cases hfit : s'.fits
      · rw [if_pos (hf.2 hfit), if_pos hfit]
        exact ⟨h1, fun r hr => ⟨hk.ext.trans (h2 r hr).ext, (h2 r hr).on⟩⟩
      · rw [if_neg (fun h => hfit (hf.1 h)), if_neg hfit]
        exact ⟨rfl, fun r hr => by simp at hr⟩
    cases hw : ns[j]? with
    | none =>
      unfold act tact
      rw [hw]
      exact ⟨rfl, fun r hr => by simp at hr⟩
    | some w =>
      cases w with
      | arg a =>
        unfold act tact
        rw [hw]
        exact ⟨rfl, fun r hr => by simp at hr⟩
      | op op =>
        by_cases hop : op = .ifElse
        · subst hop
          unfold act tact
          rw [hw]
          dsimp only
          obtain ⟨d, ⟨items, u⟩, σ⟩ := s
          match items with
          | [] => exact ⟨rfl, fun r hr => by simp at hr⟩
          | false :: rest =>
            dsimp only [toDual]
            cases argAt ns (j + 1) with
            | none => exact ⟨rfl, fun r hr => by simp at hr⟩
            | some k => exact go k t ⟨d, BStack.pop ⟨false :: rest, u⟩, σ⟩ ⟨Ext.refl t, hs.d, hs.σ, hs.dlow, hs.σlow⟩
          | true :: rest =>
            dsimp only [toDual]
            cases argAt ns (j + 1) with
            | none => exact ⟨rfl, fun r hr => by simp at hr⟩
            | some m =>
              cases argAt ns (j + 2) with
              | none => exact ⟨rfl, fun r hr => by simp at hr⟩
              | some k =>
                dsimp only
                obtain ⟨h1, h2⟩ := ih (if m = 0 then ns.length else m) (j + 3) t ⟨[], {}, σ⟩ hi hmt ⟨fun p hp => by simp at hp, hs.σ, fun p hp => by simp at hp, hs.σlow⟩ hsp hspl
                rw [show (⟨[], {}, fun k => t.dual i (σ k)⟩ : RunSt Dual) = toDual i t ⟨[], {}, σ⟩ from rfl, h1]
                cases hr1 : trun lib ns cs sp fuel (if m = 0 then ns.length else m) (j + 3) t ⟨[], {}, σ⟩ with
                | none => exact ⟨rfl, fun r hr => by simp at hr⟩
                | some r1 =>
                  have hk := h2 r1 hr1
                  obtain ⟨h3, h4⟩ := ih n k r1.1 { r1.2 with b := r1.2.b.pop } (lt_of_lt_of_le hi hk.ext.le) (hmt.trans hk.ext.le) ⟨hk.on.d, hk.on.σ, hk.on.dlow, hk.on.σlow⟩ (hsp.ext hk.ext) hspl
                  rw [sampleDual_ext hsp hk.ext i] at h3
                  exact ⟨h3, fun r hr => ⟨hk.ext.trans (h4 r hr).ext, (h4 r hr).on⟩⟩
        · have hd := tstep_dual lib i ns cs sp j op t s hi m hmt hs hsp hspl
          rw [act_step hw hop, tact_step hw hop, hd.1]
          cases hst : tstep lib ns cs sp j op t s with
          | none => exact ⟨rfl, fun r hr => by simp at hr⟩
          | some r => exact go r.1 r.2.1 r.2.2 (hd.2 r hst)

/-- All events. -/
theorem tEvents_dual (lib : Lib) (i m fuel : Nat) : ∀ (es : List (Streams ℝ × Script.Sample Nat)) (t : Tape) (σ : Nat → Nat), i < t.nodes.length → m ≤ t.nodes.length → (∀ k, m ≤ σ k ∧ σ k < t.nodes.length) →
    (∀ e ∈ es, SampleOn t e.2 ∧ m ≤ e.2.spot) →
    evaluateCompiled dualOps fuel (es.map fun e => (⟨e.1.ns, e.1.cs.map Script.lift⟩, sampleDual i t e.2)) (fun k => t.dual i (σ k)) =
      (tEvents lib fuel es t σ).map (fun r => fun k => r.1.dual i (r.2 k)) ∧
    ∀ r, tEvents lib fuel es t σ = some r → Ext t r.1 ∧ ∀ k, m ≤ r.2 k ∧ r.2 k < r.1.nodes.length := by
  intro es
  induction es with
  | nil =>
    intro t σ _ _ hσ _
    refine ⟨rfl, fun r hr => ?_⟩
    injection hr with hr
    subst hr
    exact ⟨Ext.refl t, hσ⟩
  | cons e es ih =>
    obtain ⟨s, sp⟩ := e
    intro t σ hi hmt hσ hsp
    obtain ⟨h1, h2⟩ := trun_dual lib i m s.ns s.cs sp fuel s.ns.length 0 t ⟨[], {}, σ⟩ hi hmt
      ⟨fun p hp => by simp at hp, fun k => (hσ k).2, fun p hp => by simp at hp, fun k => (hσ k).1⟩ (hsp _ (List.mem_cons_self ..)).1 (hsp _ (List.mem_cons_self ..)).2
    rw [List.map_cons, evaluateCompiled, tEvents]
    dsimp only
    rw [show (⟨[], {}, fun k => t.dual i (σ k)⟩ : RunSt Dual) = toDual i t ⟨[], {}, σ⟩ from rfl, h1]
    cases hr : trun lib s.ns s.cs sp fuel s.ns.length 0 t ⟨[], {}, σ⟩ with
    | none => exact ⟨rfl, fun r hr => by simp at hr⟩
    | some r =>
      have hk := h2 r hr
      obtain ⟨h3, h4⟩ := ih r.1 r.2.σ (lt_of_lt_of_le hi hk.ext.le) (hmt.trans hk.ext.le) (fun k => ⟨hk.on.σlow k, hk.on.σ k⟩)
        (fun e he => ⟨(hsp e (List.mem_cons_of_mem _ he)).1.ext hk.ext, (hsp e (List.mem_cons_of_mem _ he)).2⟩)
      have hmap : (es.map fun e => ((⟨e.1.ns, e.1.cs.map Script.lift⟩ : Streams Dual), sampleDual i r.1 e.2)) =
          es.map fun e => (⟨e.1.ns, e.1.cs.map Script.lift⟩, sampleDual i t e.2) :=
        List.map_congr_left fun e he => by rw [sampleDual_ext (hsp e (List.mem_cons_of_mem _ he)).1 hk.ext i]
      rw [hmap] at h3
      exact ⟨h3, fun r' hr' => ⟨hk.ext.trans (h4 r' hr').1, (h4 r' hr').2⟩⟩

end Dal.TapeRun
