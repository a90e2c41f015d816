import Verif.Sim.SeasonedLemmas
import Verif.Sim.ReportProps

/-!
# C111: products that have begun

Specification: `Verif/Sim/SeasonedSpec.lean`, which runs the trees that the parser makes, by name: events in the past at the spots that were fixed then, without payments; events to come on
the path.
-/

namespace Dal
open Dal.Script Dal.Report Dal.Seasoned Dal.Models Dal.TapeRun Dal.Noise Dal.Valued Dal.Strings

/-- The exact value of a processed product on a path. -/
noncomputable def exactFrom (r : Ready) (path : List (Script.Sample ℝ)) : ℝ :=
  evaluate realOps (fun k => r.product.values.getD k 0) (r.product.events.zip path) (fun k => r.start.getD k 0) r.product.payoff

/-- C111, dates: the events before the evaluation date are in the past and the others are to come; both are kept in order. -/
theorem C111_dates {A : Type} (today : Nat) (evs : List (Nat × A)) :
    Seasoned.split today evs = (evs.filter fun e => e.1 < today, evs.filter fun e => today ≤ e.1) := by
  induction evs with
  | nil => rfl
  | cons e l ih =>
    rw [Seasoned.split, ih]
    dsimp only
    by_cases h : today ≤ e.1
    · rw [if_pos h, List.filter_cons_of_neg (by simpa using h), List.filter_cons_of_pos (by simpa using h)]
    · rw [if_neg h, List.filter_cons_of_pos (by simpa using h), List.filter_cons_of_neg (by simpa using h)]

example : Seasoned.split 100 [(90, 'a'), (99, 'b'), (100, 'c'), (120, 'd')] = ([(90, 'a'), (99, 'b')], [(100, 'c'), (120, 'd')]) := by decide

/-- Preparing a product with a past, from preparing all its events. -/
theorem prepareAll_eq (fuzzy : Bool) (payoff : List Char) (cval : List Char → ℝ) (past future : List (PStmts ℝ)) (q : Prepared) (h : prepare fuzzy payoff cval (past ++ future) = some q)
    (σ : Nat → ℝ) (hσ : pastEvaluateSt realOps (fun k => q.values.getD k 0) pastSample (((⟨[], []⟩ : Indexer (List Char) ℝ).events cval (past ++ future)).2.take past.length) = some σ) :
    prepareAll fuzzy payoff cval past future = some ⟨{ q with events := q.events.drop past.length }, (List.range q.vars.length).map σ⟩ := by
  unfold prepare at h
  dsimp only at h
  unfold prepareAll
  dsimp only
  split at h
  · rename_i i names values h1 h2 h3
    split at h
    · cases h
    · rename_i d h4
      injection h with h
      subst h
      rw [h1, h2, h3]
      dsimp only at hσ ⊢
      rw [hσ]
      dsimp only
      rw [h4]
      dsimp only
      rw [List.map_drop]
  · cases h

/-- What is prepared for a product with a past. -/
theorem prepareAll_some (fuzzy : Bool) (payoff : List Char) (cval : List Char → ℝ) (past future : List (PStmts ℝ)) (r : Ready) (h : prepareAll fuzzy payoff cval past future = some r) :
    ∃ q, prepare fuzzy payoff cval (past ++ future) = some q ∧ r.product = { q with events := q.events.drop past.length } := by
  unfold prepareAll at h
  dsimp only at h
  split at h
  · rename_i i names values h1 h2 h3
    split at h
    · cases h
    · rename_i σ h5
      split at h
      · cases h
      · rename_i d h4
        injection h with h
        subst h
        unfold prepare
        dsimp only
        rw [h1, h2, h3]
        dsimp only
        rw [h4]
        exact ⟨_, rfl, by rw [List.map_drop]⟩
  · cases h

/-- C111: without a past, a product is prepared and reported as before (C106), with all variables zero at the start. -/
theorem C111_fresh (sgn : Bool) (lib : Adj.Lib) (cutoff epsilon smooth : ℝ) (payoff : List Char) (cval : List Char → ℝ) (prog : List (PStmts ℝ)) (today : Nat) (dates : List Nat) (b : BS ℝ)
    (N : Nat) (gen : Gen) (threads : Nat) (ex : List ((Int × Int) × Nat)) (ω : Nat → ℝ) :
    reportAll sgn lib cutoff epsilon smooth payoff cval [] prog today dates b N gen threads ex ω = report sgn lib cutoff epsilon smooth payoff cval prog today dates b N gen threads ex ω := by
  rw [reportAll, report]
  cases h : prepare true payoff cval prog with
  | none =>
    cases h' : prepareAll true payoff cval [] prog with
    | none => rfl
    | some r =>
      obtain ⟨q, h1, -⟩ := prepareAll_some _ _ _ _ _ _ h'
      rw [List.nil_append, h] at h1
      cases h1
  | some q =>
    rw [prepareAll_eq true payoff cval [] prog q h (fun _ => 0) rfl]
    have hz : (List.range q.vars.length).map (fun _ => (0 : ℝ)) = q.vars.map fun _ => 0 := by simp
    dsimp only [Ready.scripted]
    rw [hz]
    rfl

/-! ### Exact values -/

private theorem run_whole (fuzzy : Bool) (payoff : List Char) (cval : List Char → ℝ) (past future : List (PStmts ℝ)) (r : Ready) (hr : prepareAll fuzzy payoff cval past future = some r)
    (hp : (payoff, none) ∈ (past ++ future).flatMap (Stmts.names cval)) (ha : Agree cval ((past ++ future).flatMap (Stmts.names cval))) (hv : ∀ e ∈ past ++ future, Variables e)
    (path : List (Script.Sample ℝ)) (hl : path.length = future.length) (hn : ∀ sp ∈ path, 0 < sp.numeraire)
    (L M : Plan (List Char)) (hL : L = past.map fun e => (false, e, pastSample)) (hM : M = List.zipWith (fun e sp => (true, e, sp)) future path) (hx : Seasoned.Fine (Plan.happened (L ++ M)) fun _ => 0) :
    exactFrom r path = story (Plan.happened (L ++ M)) (fun _ => 0) payoff := by
  obtain ⟨f, g, s1, s2, s3, s4⟩ := slots_all cval (past ++ future) ha
  unfold prepareAll at hr
  dsimp only at hr
  split at hr
  · rename_i i names values h1 h2 h3
    split at hr
    · cases hr
    · rename_i σ h5
      split at hr
      · cases hr
      · rename_i d h4
        injection hr with hr
        subst hr
        set cv : Nat → ℝ := fun k => values.getD k 0 with hcv
        have hfit : Fits ((past ++ future).flatMap (Stmts.names cval)) f g cv := by
          refine ⟨fun n m hn hm e => ?_, fun n c hc => ?_⟩
          · have a := s2 n hn
            rw [e, s2 m hm] at a
            simpa using a.symm
          · have := filled_get _ _ h3 (g n) c (s3 n c hc)
            rw [hcv]
            dsimp only
            rw [List.getD_eq_getElem?_getD, this]; rfl
        have hi : i = f payoff := by
          have := s4 payoff hp
          exact Option.some.inj (h1.symm.trans this)
        have hσ : σ = (past.map (Stmts.map f g)).foldl (fun σ ev => pastExecs realOps cv pastSample ev σ) (fun _ => 0) := by
          rw [stack_past _ _ _ _ _ h5]
          have : ((⟨[], []⟩ : Indexer (List Char) ℝ).events cval (past ++ future)).2 = (past ++ future).map (Stmts.map f g) := s1
          rw [this, List.map_append, List.take_left' (by simp)]
          rfl
        -- the plan and its trees
        have hLM : (L ++ M).map (fun a => a.2.1) = past ++ future := by
          rw [List.map_append, hL, hM, List.map_map]
          congr 1
          · exact List.map_id' past
          · clear hM hx
            have : ∀ (l : List (PStmts ℝ)) (p : List (Script.Sample ℝ)), p.length = l.length → (List.zipWith (fun e sp => ((true, e, sp) : Bool × PStmts ℝ × Script.Sample ℝ)) l p).map (fun a => a.2.1) = l := by
              intro l
              induction l with
              | nil => intro p _; simp
              | cons e l ih =>
                intro p hp
                cases p with
                | nil => cases hp
                | cons sp p => rw [List.zipWith_cons_cons, List.map_cons, ih p (by simpa using hp)]
            exact this future path hl
        have hmap : (L ++ M).map (fun a => a.2.1.map f g) = (past ++ future).map (Stmts.map f g) := by rw [← hLM, List.map_map]; rfl
        have hmapL : L.map (fun a => a.2.1.map f g) = past.map (Stmts.map f g) := by rw [hL, List.map_map]; rfl
        have hnames : ∀ a ∈ L ++ M, a.2.1.names cval ⊆ (past ++ future).flatMap (Stmts.names cval) ∧ Variables a.2.1 := by
          intro a ha
          have : a.2.1 ∈ past ++ future := by rw [← hLM]; exact List.mem_map_of_mem ha
          exact ⟨fun y hy => List.mem_flatMap.2 ⟨_, this, hy⟩, hv _ this⟩
        have hev : (ifEvents {} ((⟨[], []⟩ : Indexer (List Char) ℝ).events cval (past ++ future)).2).2 = (Plan.dated (L ++ M) f g {}).map fun e => e.2.1 := by
          rw [Plan.dated_events, hmap]
          exact congrArg (fun l => (ifEvents {} l).2) s1
        rw [hev, Plan.dated_append] at h4
        set s' : IfState := (ifEvents {} (L.map fun a => a.2.1.map f g)).1 with hs'
        set A := L.dated f g {} with hA
        set B := M.dated f g s' with hB
        rw [List.map_append] at h4
        obtain ⟨r1, r2, g1, g2, g3, g4⟩ := domEvents_append _ _ _ _ _ _ h4
        have hsame : Same ((past ++ future).flatMap (Stmts.names cval)) f (fun _ => 0) (fun _ => 0) := fun _ _ => rfl
        have hok : OkAll cv (A ++ B) (fun _ => 0) := by
          rw [hA, hB, ← Plan.dated_append]
          exact fine_all hfit cval (L ++ M) {} _ _ hsame hnames hx
        have hrec : ∀ ev ∈ A ++ B, RecSs ev.2.1 := by
          intro ev hev'
          rw [hA, hB, ← Plan.dated_append] at hev'
          have : ev.2.1 ∈ (ifEvents {} ((past ++ future).map (Stmts.map f g))).2 := by
            rw [← hmap, ← Plan.dated_events]
            exact List.mem_map_of_mem hev'
          exact rec_events cval f g _ hv _ this
        have shapeA : A.map (fun e => (e.1, e.2.2)) = past.map fun _ => (false, pastSample) := by
          rw [hA, Plan.dated_shape, hL, List.map_map]; rfl
        have shapeB : B.map (fun e => (e.1, e.2.2)) = path.map fun sp => (true, sp) := by
          rw [hB, Plan.dated_shape, hM]
          have : ∀ (l : List (PStmts ℝ)) (p : List (Script.Sample ℝ)), p.length = l.length → (List.zipWith (fun e sp => ((true, e, sp) : Bool × PStmts ℝ × Script.Sample ℝ)) l p).map (fun a => (a.1, a.2.2)) =
              p.map fun sp => (true, sp) := by
            intro l
            induction l with
            | nil => intro p hp; rw [List.length_eq_zero_iff.1 hp]; rfl
            | cons e l ih =>
              intro p hp
              cases p with
              | nil => cases hp
              | cons sp p => rw [List.zipWith_cons_cons, List.map_cons, ih p (by simpa using hp), List.map_cons]
          exact this future path hl
        have hnum : ∀ ev ∈ A ++ B, ev.1 = true → 0 < ev.2.2.numeraire := by
          intro ev hev' ht
          rcases List.mem_append.1 hev' with hm | hm
          · have := List.mem_map_of_mem (f := fun e : Dated ℝ => (e.1, e.2.2)) hm
            rw [shapeA] at this
            obtain ⟨_, _, he⟩ := List.mem_map.1 this
            have := congrArg Prod.fst he
            dsimp only at this
            rw [ht] at this
            cases this
          · have := List.mem_map_of_mem (f := fun e : Dated ℝ => (e.1, e.2.2)) hm
            rw [shapeB] at this
            obtain ⟨sp, h6, he⟩ := List.mem_map.1 this
            have := congrArg Prod.snd he
            dsimp only at this
            rw [← this]
            exact hn sp h6
        obtain ⟨i1, i2⟩ := C32_initial (K := ℝ)
        obtain ⟨-, -, cA⟩ := C32_product_partial (K := ℝ) (· ^ ·) Real.log Real.sqrt Real.exp fuzzy cv A r1.1 (fun _ => 0) domInit r1.2 (by rw [← realOps_eq]; exact g1) i1 i2
          (fun ev he => ⟨hnum ev (List.mem_append_left _ he), hrec ev (List.mem_append_left _ he)⟩) hok.left.pre
        obtain ⟨lW, -, cW⟩ := C32_product_partial (K := ℝ) (· ^ ·) Real.log Real.sqrt Real.exp fuzzy cv (A ++ B) d.1 (fun _ => 0) domInit d.2
          (by rw [← realOps_eq, List.map_append]; exact h4) i1 i2 (fun ev he => ⟨hnum ev he, hrec ev he⟩) hok.pre
        rw [← realOps_eq] at cA cW
        have lA : A.length = r1.1.length := by simpa using g4.symm
        have lB : r2.1.length = B.length := by
          rw [g3, List.length_append, List.length_append, lA] at lW
          omega
        rw [g3, List.zipWith_append lA, runAll_append, cA] at cW
        have hpastlen : r1.1.length = past.length := by
          have := congrArg List.length shapeA
          rw [List.length_map, List.length_map] at this
          omega
        have hstart : runAll realOps cv A (fun _ => 0) = σ := by
          rw [hσ, hA, hL]
          exact runAll_past cv f g pastSample past {} _
        rw [hstart, runAll_future cv r2.1 B path σ shapeB lB] at cW
        have hzero : (fun k => ((List.range (((⟨[], []⟩ : Indexer (List Char) ℝ).events cval (past ++ future)).1.varNames).length).map σ).getD k 0) = σ := by
          funext k
          rw [List.getD_eq_getElem?_getD, List.getElem?_map]
          by_cases hk : k < (((⟨[], []⟩ : Indexer (List Char) ℝ).events cval (past ++ future)).1.varNames).length
          · rw [List.getElem?_range hk]; rfl
          · rw [List.getElem?_eq_none (by simpa using hk)]
            show (0 : ℝ) = σ k
            rw [hσ]
            refine (past_zero realOps cv pastSample _ k ?_).symm
            intro ev hev' x hx' hxk
            obtain ⟨e0, he0, rfl⟩ := List.mem_map.1 hev'
            obtain ⟨-, n, hn1, hn2⟩ := map_targetss cval f g e0 (hv e0 (List.mem_append_left _ he0)) x hx'
            have := s2 n (List.mem_flatMap.2 ⟨e0, List.mem_append_left _ he0, hn1⟩)
            rw [← hn2, hxk] at this
            exact hk (List.getElem?_eq_some_iff.1 this).1
        rw [exactFrom]
        dsimp only
        rw [hzero, g3, ← hpastlen, List.drop_left' rfl, cW, hi, hA, hB, ← Plan.dated_append]
        exact story_eq hfit cval (L ++ M) {} _ _ hsame hnames payoff hp
  · cases hr

/-- C111, exactly: on every path, a product is worth what its events, by name, give: those in the past without payments, those to come on the path.  The full claim is about the spots that
were fixed in the past; missing: every spot in the past is taken to be 30, see `C111_history_violated`. -/
theorem C111_value_partial (fuzzy : Bool) (payoff : List Char) (cval : List Char → ℝ) (past future : List (PStmts ℝ)) (r : Ready) (hr : prepareAll fuzzy payoff cval past future = some r)
    (hp : (payoff, none) ∈ (past ++ future).flatMap (Stmts.names cval)) (ha : Agree cval ((past ++ future).flatMap (Stmts.names cval))) (hv : ∀ e ∈ past ++ future, Variables e)
    (path : List (Script.Sample ℝ)) (hl : path.length = future.length) (hn : ∀ sp ∈ path, 0 < sp.numeraire)
    (hx : Seasoned.Fine (before past (past.map fun _ => 30) ++ after future path) fun _ => 0) :
    exactFrom r path = worth past (past.map fun _ => 30) future path payoff := by
  have hh : Plan.happened ((past.map fun e => ((false, e, pastSample) : Bool × PStmts ℝ × Script.Sample ℝ)) ++ List.zipWith (fun e sp => (true, e, sp)) future path) =
      before past (past.map fun _ => 30) ++ after future path := by
    rw [Plan.happened, List.map_append, before, after]
    congr 1
    · clear hx ha hp hv hr
      induction past with
      | nil => rfl
      | cons e l ih => rw [List.map_cons, List.map_cons, List.map_cons, List.zip_cons_cons, List.map_cons, ih]; rfl
    · rw [List.map_zipWith, List.map_zip_eq_zipWith]
      rfl
  rw [run_whole fuzzy payoff cval past future r hr hp ha hv path hl hn _ _ rfl rfl (by rw [hh]; exact hx), hh]
  rfl


/-! ### Events in the past that do not look at the spot -/

namespace Seasoned
variable {ν : Type} [DecidableEq ν]

theorem value_blind (s s' : ℝ) (τ : ν → ℝ) : ∀ e : Script.Expr ν ℝ, BlindE e → value s τ e = value s' τ e
  | .bin op l r _, h => by
    cases op <;> simp only [value, value_blind s s' τ l h.1, value_blind s s' τ r h.2]
  | .un op a _, h => by
    cases op <;> simp only [value, value_blind s s' τ a h]
  | .extra m _ _, h => by rw [value, value, value_blind s s' τ m h]
  | .const _, _ => rfl
  | .var _ _, _ => rfl
  | .constVar _ _, _ => rfl
  | .spot, h => h.elim

theorem holds_blind (s s' : ℝ) (τ : ν → ℝ) : ∀ c : Script.Cond ν ℝ, BlindC c → (holds s τ c ↔ holds s' τ c)
  | .cmp op e _ _, h => by
    cases op <;> simp only [holds, value_blind s s' τ e h]
  | .and l r _, h => by rw [holds, holds, holds_blind s s' τ l h.1, holds_blind s s' τ r h.2]
  | .or l r _, h => by rw [holds, holds, holds_blind s s' τ l h.1, holds_blind s s' τ r h.2]
  | .not c _, h => by rw [holds, holds, holds_blind s s' τ c h]
  | .tt, _ => Iff.rfl
  | .ff, _ => Iff.rfl

theorem fineE_blind (s s' : ℝ) (τ : ν → ℝ) : ∀ e : Script.Expr ν ℝ, BlindE e → (FineE s τ e ↔ FineE s' τ e)
  | .bin op l r _, h => by rw [FineE, FineE, fineE_blind s s' τ l h.1, fineE_blind s s' τ r h.2, value_blind s s' τ r h.2]
  | .un op a _, h => by rw [FineE, FineE, fineE_blind s s' τ a h, value_blind s s' τ a h]
  | .extra m _ _, h => Iff.rfl
  | .const _, _ => Iff.rfl
  | .var _ _, _ => Iff.rfl
  | .constVar _ _, _ => Iff.rfl
  | .spot, h => h.elim

theorem fineC_blind (s s' : ℝ) (τ : ν → ℝ) : ∀ c : Script.Cond ν ℝ, BlindC c → (FineC s τ c ↔ FineC s' τ c)
  | .cmp op e _ _, h => fineE_blind s s' τ e h
  | .and l r _, h => by rw [FineC, FineC, fineC_blind s s' τ l h.1, fineC_blind s s' τ r h.2, holds_blind s s' τ l h.1]
  | .or l r _, h => by rw [FineC, FineC, fineC_blind s s' τ l h.1, fineC_blind s s' τ r h.2, holds_blind s s' τ l h.1]
  | .not c _, h => fineC_blind s s' τ c h
  | .tt, _ => Iff.rfl
  | .ff, _ => Iff.rfl

mutual
theorem run_blind (s s' : ℝ) : ∀ (st : Script.Stmt ν ℝ) (τ : ν → ℝ), Blind st → run none s st τ = run none s' st τ
  | .assign x e, τ, h => by rw [run, run, value_blind s s' τ e h]
  | .pays x e, τ, _ => rfl
  | .ite c t he e _ _, τ, h => by
    rw [run, run, runs_blind s s' t τ h.2.1, runs_blind s s' e τ h.2.2]
    by_cases hc : holds s τ c
    · rw [if_pos hc, if_pos ((holds_blind s s' τ c h.1).1 hc)]
    · rw [if_neg hc, if_neg fun h' => hc ((holds_blind s s' τ c h.1).2 h')]
  | .collect b, τ, h => by rw [run, run, runs_blind s s' b τ h]
theorem runs_blind (s s' : ℝ) : ∀ (ss : Script.Stmts ν ℝ) (τ : ν → ℝ), Blinds ss → runs none s ss τ = runs none s' ss τ
  | .nil, τ, _ => rfl
  | .cons st ss, τ, h => by rw [runs, runs, run_blind s s' st τ h.1, runs_blind s s' ss _ h.2]
end

mutual
theorem fineS_blind (s s' : ℝ) : ∀ (st : Script.Stmt ν ℝ) (τ : ν → ℝ), Blind st → (FineS none s st τ ↔ FineS none s' st τ)
  | .assign x e, τ, h => fineE_blind s s' τ e h
  | .pays x e, τ, _ => by rw [FineS, FineS]; simp
  | .ite c t he e _ _, τ, h => by
    rw [FineS, FineS, fineC_blind s s' τ c h.1, holds_blind s s' τ c h.1, fineSs_blind s s' t τ h.2.1, fineSs_blind s s' e τ h.2.2]
  | .collect b, τ, h => by rw [FineS, FineS, fineSs_blind s s' b τ h]
theorem fineSs_blind (s s' : ℝ) : ∀ (ss : Script.Stmts ν ℝ) (τ : ν → ℝ), Blinds ss → (FineSs none s ss τ ↔ FineSs none s' ss τ)
  | .nil, τ, _ => Iff.rfl
  | .cons st ss, τ, h => by rw [FineSs, FineSs, fineS_blind s s' st τ h.1, run_blind s s' st τ h.1, fineSs_blind s s' ss _ h.2]
end

/-- The spots of the past make no difference to events that do not look at them. -/
theorem past_blind (rest : List (Happened ν)) : ∀ (past : List (Script.Stmts ν ℝ)) (history history' : List ℝ) (τ : ν → ℝ), (∀ e ∈ past, Blinds e) → history.length = past.length →
    history'.length = past.length → story (before past history ++ rest) τ = story (before past history' ++ rest) τ ∧
      (Seasoned.Fine (before past history ++ rest) τ ↔ Seasoned.Fine (before past history' ++ rest) τ)
  | [], _, _, τ, _, _, _ => ⟨rfl, Iff.rfl⟩
  | e :: past, [], _, τ, _, h, _ => by cases h
  | e :: past, _ :: _, [], τ, _, _, h => by cases h
  | e :: past, a :: l, a' :: l', τ, hb, h, h' => by
    have h1 := hb e List.mem_cons_self
    obtain ⟨h2, h3⟩ := past_blind rest past l l' (runs none a e τ) (fun x hx => hb x (List.mem_cons_of_mem _ hx)) (by simpa using h) (by simpa using h')
    constructor
    · show story (before past l ++ rest) (runs none a e τ) = story (before past l' ++ rest) (runs none a' e τ)
      rw [h2, runs_blind a a' e τ h1]
    · show (FineSs none a e τ ∧ Seasoned.Fine (before past l ++ rest) (runs none a e τ)) ↔ (FineSs none a' e τ ∧ Seasoned.Fine (before past l' ++ rest) (runs none a' e τ))
      rw [h3, fineSs_blind a a' e τ h1, runs_blind a a' e τ h1]

end Seasoned

/-- C111: a product whose past events do not look at the spot, except to pay, is worth on every path what it should be, whatever the spots that were fixed. -/
theorem C111_blind (fuzzy : Bool) (payoff : List Char) (cval : List Char → ℝ) (past future : List (PStmts ℝ)) (r : Ready) (hr : prepareAll fuzzy payoff cval past future = some r)
    (hp : (payoff, none) ∈ (past ++ future).flatMap (Stmts.names cval)) (ha : Agree cval ((past ++ future).flatMap (Stmts.names cval))) (hv : ∀ e ∈ past ++ future, Variables e)
    (hb : ∀ e ∈ past, Blinds e) (history : List ℝ) (hh : history.length = past.length) (path : List (Script.Sample ℝ)) (hl : path.length = future.length) (hn : ∀ sp ∈ path, 0 < sp.numeraire)
    (hx : Seasoned.Fine (before past history ++ after future path) fun _ => 0) :
    exactFrom r path = worth past history future path payoff := by
  obtain ⟨h1, h2⟩ := past_blind (after future path) past history (past.map fun _ => 30) (fun _ => 0) hb hh (by simp)
  rw [C111_value_partial fuzzy payoff cval past future r hr hp ha hv path hl hn (h2.1 hx), worth, worth, h1]

/-! ### Tables -/

private theorem filled_length' {A : Type} : ∀ (l : List (Option A)) (r : List A), filled l = some r → r.length = l.length := by
  intro l
  induction l with
  | nil => intro r h; injection h with h; subst h; rfl
  | cons x l ih =>
    intro r h
    cases x with
    | none => cases h
    | some a =>
      rw [filled, Option.map_eq_some_iff] at h
      obtain ⟨r', h1, rfl⟩ := h
      simp [ih r' h1]

private theorem sets_length' {A B : Type} (f : A → Nat) (g : A → B) : ∀ (l : List A) (v : List B), (l.foldl (fun v e => v.set (f e) (g e)) v).length = v.length := by
  intro l
  induction l with
  | nil => intro v; rfl
  | cons x l ih => intro v; rw [List.foldl_cons, ih, List.length_set]

private theorem ready_lengths {fuzzy : Bool} {payoff : List Char} {cval : List Char → ℝ} {past future : List (PStmts ℝ)} {r : Ready} (h : prepareAll fuzzy payoff cval past future = some r) :
    r.product.consts.length = r.product.values.length := by
  unfold prepareAll at h
  dsimp only at h
  split at h
  · rename_i i names values h1 h2 h3
    split at h
    · cases h
    · split at h
      · cases h
      · injection h with h
        subst h
        show names.length = values.length
        rw [filled_length' _ _ h2, filled_length' _ _ h3, Script.Indexer.constNames, Script.Indexer.constValues, sets_length', sets_length']
        simp
  · cases h

private theorem times_spec' (today : Nat) (dates : List Nat) (hne : dates ≠ []) (hp : dates.IsChain (· < ·)) (hpos : ∀ d ∈ dates, today < d) :
    times today dates ≠ [] ∧ (times today dates).IsChain (· < ·) ∧ ∀ t ∈ times today dates, 0 < t := by
  refine ⟨by simpa [times] using hne, ?_, ?_⟩
  · rw [times, List.isChain_map]
    refine hp.imp fun a c hac => ?_
    have : ((a : Int) : ℝ) < ((c : Int) : ℝ) := by exact_mod_cast hac
    push_cast
    push_cast at this
    linarith
  · intro t ht
    obtain ⟨d, hd, rfl⟩ := List.mem_map.1 ht
    have : ((today : Int) : ℝ) < ((d : Int) : ℝ) := by exact_mod_cast hpos d hd
    push_cast
    push_cast at this
    linarith

/-- The table of a product that has begun, with or without an event today; every path starts from what the past has left in the variables. -/
theorem seasoned_from (sgn : Bool) (lib : Adj.Lib) (F : Nat → Prop) (eps smooth : ℝ) (payoff : List Char) (cval : List Char → ℝ) (past future : List (PStmts ℝ)) (r : Ready)
    (hr : prepareAll true payoff cval past future = some r) (now : Bool) (ho : ∀ e ∈ r.product.events, OwnSs True F e)
    (ho0 : now = true → ∀ e ∈ r.product.events.head?, OwnSs False F e) (hF : F r.product.payoff)
    (hd : (Results.bsLabels ++ r.product.consts).Pairwise fun a b => eqS sgn a b = false) (b : BS ℝ) (hspot : now = true → 0 < b.spot) (today : Nat) (dates : List Nat) (hne : serialsFrom now today dates ≠ []) (hp : dates.IsChain (· < ·))
    (hpos : ∀ d ∈ dates, today < d) (N threads : Nat) (gen : Gen) (ex : List ((Int × Int) × Nat)) (h : Runs N threads ex) (ω : ℕ → ℝ) (value : (Nat → ℝ) → ℝ)
    (hv : ∀ pos, fuzzyPath (r.scripted smooth eps) (fun k => r.product.values.getD k 0) b (times today (serialsFrom now today dates)) (numbers (window dates.length pos ω)) =
      some (value (numbers (window dates.length pos ω)))) :
    ∃ B : Nat → ℝ, ∀ cutoff, 0 ≤ cutoff → ∃ t risks, reportAll sgn lib cutoff eps smooth payoff cval past future today (serialsFrom now today dates) b N gen threads ex ω = some t ∧
      t.Pairwise (fun a b => ltS sgn a.1 b.1 = true) ∧ risks.length = 4 + r.product.consts.length ∧
      t.Perm (("PV".toList, some (simulated true gen dates.length N threads ex value ω)) :: ((Results.bsLabels ++ r.product.consts).zip risks).map fun e => ("d_".toList ++ e.1, some e.2)) ∧
      ∀ (i : Nat) (x : ℝ), risks[i]? = some x →
        |x - simulated true gen dates.length N threads ex (pathDeriv (r.scripted smooth eps) b r.product.values (times today (serialsFrom now today dates)) i) ω| ≤ cutoff * B i := by
  have hl := ready_lengths hr
  have hlen : (times today dates).length = dates.length := by simp [times]
  have hne' : datesFrom now (times today dates) ≠ [] := by
    rw [← times_from]
    simpa [times] using hne
  have hp' : (times today dates).IsChain (· < ·) := by
    rw [times, List.isChain_map]
    refine hp.imp fun a c hac => ?_
    have : ((a : Int) : ℝ) < ((c : Int) : ℝ) := by exact_mod_cast hac
    push_cast
    push_cast at this
    linarith
  have hpos' : ∀ t ∈ times today dates, 0 < t := by
    intro t ht
    obtain ⟨d, hd, rfl⟩ := List.mem_map.1 ht
    have : ((today : Int) : ℝ) < ((d : Int) : ℝ) := by exact_mod_cast hpos d hd
    push_cast
    push_cast at this
    linarith
  obtain ⟨B, hB⟩ := simulation_from lib F (r.scripted smooth eps) now ho ho0 hF b hspot r.product.values (times today dates) hne' hp' hpos' N threads gen ex h ω value
    (by rw [hlen, ← times_from]; exact hv)
  rw [hlen, ← times_from] at hB
  refine ⟨B, fun cutoff hc => ?_⟩
  obtain ⟨agg, risks, h1, h2, h3, h4⟩ := hB cutoff hc
  obtain ⟨t, t1, t2, -, t4⟩ := C96_table (K := ℝ) sgn "BSModelData_".toList (C96_model sgn [] true (N : Int) [] (fun _ => (none : Option (ℝ × List ℝ)))).2.2.1 (N : Int)
    (Results.bsLabels ++ r.product.consts) (fun n => simulation lib cutoff (r.scripted smooth eps) b r.product.values (times today (serialsFrom now today dates)) n.toNat gen threads ex ω) agg risks h1
    (by rw [h2, List.length_append, hl]; rfl) hd
  refine ⟨t, risks, ?_, t2, by rw [h2, hl], ?_, h4⟩
  · rw [reportAll, hr]
    exact t1
  · have h5 : Valued.average agg (N : Int) = some (simulated true gen dates.length N threads ex value ω) := by
      rw [Valued.average, if_neg (by have := h.some; omega), ← h3]
      norm_cast
    rw [← h5]
    exact t4

/-- C111, the table: as `C106_table`, for a product that has begun; every path starts from what the past has left in the variables. -/
theorem C111_table (sgn : Bool) (lib : Adj.Lib) (F : Nat → Prop) (eps smooth : ℝ) (payoff : List Char) (cval : List Char → ℝ) (past future : List (PStmts ℝ)) (r : Ready)
    (hr : prepareAll true payoff cval past future = some r) (ho : ∀ e ∈ r.product.events, OwnSs True F e) (hF : F r.product.payoff)
    (hd : (Results.bsLabels ++ r.product.consts).Pairwise fun a b => eqS sgn a b = false) (b : BS ℝ) (today : Nat) (dates : List Nat) (hne : dates ≠ []) (hp : dates.IsChain (· < ·))
    (hpos : ∀ d ∈ dates, today < d) (N threads : Nat) (gen : Gen) (ex : List ((Int × Int) × Nat)) (h : Runs N threads ex) (ω : ℕ → ℝ) (value : (Nat → ℝ) → ℝ)
    (hv : ∀ pos, fuzzyPath (r.scripted smooth eps) (fun k => r.product.values.getD k 0) b (times today dates) (numbers (window dates.length pos ω)) =
      some (value (numbers (window dates.length pos ω)))) :
    ∃ B : Nat → ℝ, ∀ cutoff, 0 ≤ cutoff → ∃ t risks, reportAll sgn lib cutoff eps smooth payoff cval past future today dates b N gen threads ex ω = some t ∧
      t.Pairwise (fun a b => ltS sgn a.1 b.1 = true) ∧ risks.length = 4 + r.product.consts.length ∧
      t.Perm (("PV".toList, some (simulated true gen dates.length N threads ex value ω)) :: ((Results.bsLabels ++ r.product.consts).zip risks).map fun e => ("d_".toList ++ e.1, some e.2)) ∧
      ∀ (i : Nat) (x : ℝ), risks[i]? = some x →
        |x - simulated true gen dates.length N threads ex (pathDeriv (r.scripted smooth eps) b r.product.values (times today dates) i) ω| ≤ cutoff * B i :=
  seasoned_from sgn lib F eps smooth payoff cval past future r hr false ho (fun h => by cases h) hF hd b (fun h => by cases h) today dates hne hp hpos N threads gen ex h ω value hv

/-! ### Options that have expired -/

private theorem option_room (put : Bool) (K : ℝ) :
    roomE (.bin .max (if put then .bin .sub (.constVar 0 K) .spot none else .bin .sub .spot (.constVar 0 K) none) (.const 0) none : Script.Expr Nat ℝ) = 2 := by cases put <;> rfl

private theorem option_visit (put : Bool) (K : ℝ) (cv : Nat → ℝ) : ∀ (k : Nat) (s : EvalSt ℝ), (s.d.length + k ≤ 127 →
      ∃ d, visitEvents realOps cv true ((List.replicate k (optionTree put 0 0 K)).map fun ev => (ev, pastSample)) s = some ⟨d, s.b, s.σ⟩) ∧
    (s.d.length ≤ 127 → 127 < s.d.length + k → visitEvents realOps cv true ((List.replicate k (optionTree put 0 0 K)).map fun ev => (ev, pastSample)) s = none) := by
  intro k
  induction k with
  | zero => intro s; exact ⟨fun _ => ⟨s.d, rfl⟩, fun h h' => by omega⟩
  | succ k ih =>
    intro s
    rw [List.replicate_succ, List.map_cons, visitEvents, optionTree, visitSs, visitS, C80_expression, option_room]
    by_cases h4 : s.d.length + 2 ≤ 128
    · rw [if_pos h4, Option.bind_some, if_pos rfl, Option.bind_some, visitSs, Option.bind_some]
      refine ⟨fun h => (ih _).1 (by simp only [List.length_cons]; omega), fun h h' => (ih _).2 (by simp only [List.length_cons]; omega) (by simp only [List.length_cons]; omega)⟩
    · rw [if_neg h4]
      exact ⟨fun h => by omega, fun _ _ => rfl⟩

/-- Options, some of which have expired, after the preparation. -/
theorem option_ready (put : Bool) (K : ℝ) (cval : List Char → ℝ) (k n : Nat) (hk : k ≤ 127) (hn : 0 < n) :
    prepareAll true ['o', 'p', 't'] cval (List.replicate k (optionTree put ['o', 'p', 't'] ['K'] K)) (List.replicate n (optionTree put ['o', 'p', 't'] ['K'] K)) =
      some ⟨⟨[some ['o', 'p', 't']], [['K']], [K], 0, List.replicate n (optionTree put 0 0 K), 0⟩, [0]⟩ := by
  have hq := option_prepared put cval K (k + n) (by omega)
  rw [List.replicate_add] at hq
  have hx := option_indexed put cval K (k + n) (by omega)
  rw [List.replicate_add] at hx
  have hpast : pastEvaluateSt realOps (fun j => [K].getD j 0) pastSample (List.replicate k (optionTree put 0 0 K)) = some fun _ => 0 := by
    obtain ⟨d, h⟩ := (option_visit put K (fun j => [K].getD j 0) k ⟨[], [], fun _ => 0⟩).1 (by simpa using hk)
    rw [pastEvaluateSt]
    exact congrArg (Option.map EvalSt.σ) h
  rw [prepareAll_eq true ['o', 'p', 't'] cval (List.replicate k _) (List.replicate n _) _ hq (fun _ => 0) (by
    rw [hx]
    dsimp only
    rw [List.length_replicate, List.replicate_add, List.take_left' (by simp)]
    exact hpast)]
  dsimp only
  rw [List.length_replicate, List.drop_replicate, Nat.add_sub_cancel_left]
  rfl

/-- C111: options that have expired, up to 127 of them, make no difference to the table of the options that have not.  The full claim is about any number of them; missing: more payments in
the past than fit on the stack, see `C111_expired_violated`. -/
theorem C111_expired_partial (sgn : Bool) (lib : Adj.Lib) (put : Bool) (K cutoff smooth eps : ℝ) (v : Script.PEnv ℝ) (prog : Script.PStmts ℝ)
    (h1 : v.cvs ['o', 'p', 't'] = none) (h2 : v.cvs ['K'] = some K) (h3 : v.toD (.num ['0', '.', '0']) = some 0)
    (hprog : ∃ M, ∀ n, M ≤ n → Script.pEvent v n (Script.tokens (optionText put)) = .ok prog) (cval : List Char → ℝ) (b : BS ℝ) (today : Nat) (dates : List Nat) (k n : Nat) (hk : k ≤ 127)
    (hn : 0 < n) (N threads : Nat) (gen : Gen) (ex : List ((Int × Int) × Nat)) (ω : ℕ → ℝ) :
    reportAll sgn lib cutoff eps smooth ['o', 'p', 't'] cval (List.replicate k prog) (List.replicate n prog) today dates b N gen threads ex ω =
      report sgn lib cutoff eps smooth ['o', 'p', 't'] cval (List.replicate n prog) today dates b N gen threads ex ω := by
  obtain ⟨M, hM⟩ := hprog
  obtain ⟨M', hM'⟩ := option_parsed put v K h1 h2 h3
  have hp : prog = optionTree put ['o', 'p', 't'] ['K'] K := by
    have := (hM (max M M') (le_max_left _ _)).symm.trans (hM' (max M M') (le_max_right _ _))
    injection this
  subst hp
  rw [reportAll, report, option_ready put K cval k n hk hn, option_prepared put cval K n hn]
  rfl

/-- C111 (violated): with more options than that in the past there is no valuation: every past payment leaves a number on the stack of the evaluator, which has room for 128. -/
theorem C111_expired_violated (sgn : Bool) (lib : Adj.Lib) (put : Bool) (K cutoff smooth eps : ℝ) (v : Script.PEnv ℝ) (h1 : v.cvs ['o', 'p', 't'] = none) (h2 : v.cvs ['K'] = some K)
    (h3 : v.toD (.num ['0', '.', '0']) = some 0) (cval : List Char → ℝ) (b : BS ℝ) (today : Nat) (dates : List Nat) (k n : Nat) (hk : 127 < k) (hn : 0 < n) (N threads : Nat) (gen : Gen)
    (ex : List ((Int × Int) × Nat)) (ω : ℕ → ℝ) :
    ∃ prog : Script.PStmts ℝ, (∃ M, ∀ n, M ≤ n → Script.pEvent v n (Script.tokens (optionText put)) = .ok prog) ∧
      prepare true ['o', 'p', 't'] cval (List.replicate n prog) ≠ none ∧ prepareAll true ['o', 'p', 't'] cval (List.replicate k prog) (List.replicate n prog) = none ∧
      reportAll sgn lib cutoff eps smooth ['o', 'p', 't'] cval (List.replicate k prog) (List.replicate n prog) today dates b N gen threads ex ω = none := by
  refine ⟨_, option_parsed put v K h1 h2 h3, by rw [option_prepared put cval K n hn]; exact Option.some_ne_none _, ?_⟩
  have hx := option_indexed put cval K (k + n) (by omega)
  rw [List.replicate_add] at hx
  have hnone : prepareAll true ['o', 'p', 't'] cval (List.replicate k (optionTree put ['o', 'p', 't'] ['K'] K)) (List.replicate n (optionTree put ['o', 'p', 't'] ['K'] K)) = none := by
    unfold prepareAll
    rw [hx]
    have h : Script.payoffIdx ['o', 'p', 't'] (⟨[(['o', 'p', 't'], 0)], [(['K'], (0, K))]⟩ : Script.Indexer (List Char) ℝ).varNames = some 0 := rfl
    have hc : filled (⟨[(['o', 'p', 't'], 0)], [(['K'], (0, K))]⟩ : Script.Indexer (List Char) ℝ).constNames = some [['K']] := rfl
    have hd : filled (⟨[(['o', 'p', 't'], 0)], [(['K'], (0, K))]⟩ : Script.Indexer (List Char) ℝ).constValues = some [K] := rfl
    dsimp only
    rw [h, hc, hd]
    dsimp only
    rw [List.length_replicate, List.replicate_add, List.take_left' (by simp), pastEvaluateSt]
    rw [show visitEvents realOps (fun j => [K].getD j 0) true ((List.replicate k (optionTree put 0 0 K)).map fun ev => (ev, pastSample)) ⟨[], [], fun _ => realOps.zero⟩ = none from
      (option_visit put K _ k _).2 (by simp) (by simpa using hk)]
    rfl
  exact ⟨hnone, by rw [reportAll, hnone]⟩

/-! ### The hypotheses hold -/

private noncomputable def demoMarket : BS ℝ := ⟨100, 0.03, 0.01, 0.2⟩

private def demoEnv : Script.PEnv ℝ := ⟨fun _ => some 0, fun s => if s = ['K'] then some 110 else none, fun _ _ => some none, -1, 0⟩

private def demoRun : List ((Int × Int) × Nat) := [((1024, 976), 1), ((0, 1024), 0)]

private theorem demo_runs : Runs 2000 2 demoRun := ⟨by decide, by decide, ⟨[(0, 1024), (1024, 976)], by decide +kernel, List.Perm.swap _ _ _⟩, by decide⟩

/-- A call struck at 110 with two dates in the past and one to come, by the general theorem. -/
example (a b : ℝ) : ∃ r, prepareAll true ['o', 'p', 't'] (fun _ => 110) (List.replicate 2 (optionTree false ['o', 'p', 't'] ['K'] 110)) (List.replicate 1 (optionTree false ['o', 'p', 't'] ['K'] 110)) = some r ∧
    exactFrom r [⟨150, 2⟩] = 20 ∧ exactFrom r [⟨150, 2⟩] =
      worth (List.replicate 2 (optionTree false ['o', 'p', 't'] ['K'] 110)) [a, b] (List.replicate 1 (optionTree false ['o', 'p', 't'] ['K'] 110)) [⟨150, 2⟩] ['o', 'p', 't'] := by
  have hr := option_ready false 110 (fun _ => 110) 2 1 (by norm_num) (by norm_num)
  have hw : worth (List.replicate 2 (optionTree false ['o', 'p', 't'] ['K'] 110)) [a, b] (List.replicate 1 (optionTree false ['o', 'p', 't'] ['K'] 110)) [⟨150, 2⟩] ['o', 'p', 't'] = (0 : ℝ) + max (150 - 110) 0 / 2 := by
    simp only [worth, before, after, List.replicate, List.zip_cons_cons, List.zip_nil_right, List.map_cons, List.map_nil, List.cons_append, List.nil_append, story, List.foldl_cons, List.foldl_nil, optionTree,
      runs, Seasoned.run, value, Function.update_self, Bool.false_eq_true, if_false]
  have key := C111_blind true ['o', 'p', 't'] (fun _ => 110) _ _ _ hr (by simp [List.replicate, optionTree, Stmts.names, Stmt.names, Lhs.names])
    (by
      intro n c hc
      simp [List.replicate, optionTree, Stmts.names, Stmt.names, Expr.names, Lhs.names] at hc
      exact hc.2)
    (by
      intro e he
      rw [← List.replicate_add] at he
      rw [List.eq_of_mem_replicate he]
      exact ⟨rfl, trivial⟩)
    (by
      intro e he
      rw [List.eq_of_mem_replicate he]
      exact ⟨trivial, trivial⟩) [a, b] rfl [⟨150, 2⟩] rfl (by simp)
    (by
      simp only [before, after, List.replicate, List.zip_cons_cons, List.zip_nil_right, List.map_cons, List.map_nil, List.cons_append, List.nil_append, Seasoned.Fine, optionTree, FineSs, FineS]
      refine ⟨⟨fun h => absurd rfl h, trivial⟩, ⟨fun h => absurd rfl h, trivial⟩, ⟨fun _ => ?_, trivial⟩, trivial⟩
      exact ⟨⟨trivial, trivial, fun h => by cases h⟩, trivial, fun h => by cases h⟩)
  refine ⟨_, hr, ?_, key⟩
  rw [key, hw]
  norm_num

/-- Two expired calls and two to come: the six rows of C106, and the general theorem about tables. -/
example (lib : Adj.Lib) (ω : ℕ → ℝ) : ∃ prog t, (∃ M, ∀ n, M ≤ n → Script.pEvent demoEnv n (Script.tokens (optionText false)) = .ok prog) ∧
    reportAll true lib 0 (2 / 10 ^ 14) 0.01 ['o', 'p', 't'] (fun _ => 0) (List.replicate 2 prog) (List.replicate 2 prog) 46000 [46365, 46730] demoMarket 2000 .mrg 2 demoRun ω = some t ∧
    reportAll true lib 0 (2 / 10 ^ 14) 0.01 ['o', 'p', 't'] (fun _ => 0) (List.replicate 2 prog) (List.replicate 2 prog) 46000 [46365, 46730] demoMarket 2000 .mrg 2 demoRun ω =
      report true lib 0 (2 / 10 ^ 14) 0.01 ['o', 'p', 't'] (fun _ => 0) (List.replicate 2 prog) 46000 [46365, 46730] demoMarket 2000 .mrg 2 demoRun ω := by
  have hparsed := option_parsed false demoEnv 110 rfl rfl rfl
  obtain ⟨n1, n2, n3⟩ := times_spec' 46000 [46365, 46730] (by simp) (by simp) (by simp)
  obtain ⟨B, hB⟩ := C111_table true lib (fun k => k = 0) (2 / 10 ^ 14) 0.01 ['o', 'p', 't'] (fun _ => 0) _ _ _ (option_ready false 110 (fun _ => 0) 2 2 (by norm_num) (by norm_num))
    (option_own false 110 0.01 (2 / 10 ^ 14) (times 46000 [46365, 46730])) rfl (by decide +kernel) demoMarket 46000 [46365, 46730] (by simp) (by simp) (by simp) 2000 2 .mrg demoRun demo_runs ω
    (optionValue false 110 demoMarket (times 46000 [46365, 46730]))
    (fun pos => fuzzy_of_smooth _ demoMarket [110] _ n1 n2 n3 _ _ _ (option_smooth false 110 0.01 (2 / 10 ^ 14) demoMarket (times 46000 [46365, 46730]) n1 n2 n3 0 _))
  obtain ⟨t, risks, h1, -⟩ := hB 0 le_rfl
  exact ⟨_, t, hparsed, h1, C111_expired_partial true lib false 110 0 0.01 (2 / 10 ^ 14) demoEnv _ rfl rfl rfl hparsed _ _ _ _ 2 2 (by norm_num) (by norm_num) _ _ _ _ _⟩

/-- Two hundred expired calls and one to come. -/
example (lib : Adj.Lib) (ω : ℕ → ℝ) : ∃ prog, (∃ M, ∀ n, M ≤ n → Script.pEvent demoEnv n (Script.tokens (optionText false)) = .ok prog) ∧
    reportAll true lib 0 0 0.01 ['o', 'p', 't'] (fun _ => 0) (List.replicate 200 prog) (List.replicate 1 prog) 46000 [46365] demoMarket 2000 .mrg 2 demoRun ω = none := by
  obtain ⟨prog, h1, -, -, h2⟩ := C111_expired_violated true lib false 110 0 0.01 0 demoEnv rfl rfl rfl (fun _ => 0) demoMarket 46000 [46365] 200 1 (by norm_num) (by norm_num) 2000 2 .mrg demoRun ω
  exact ⟨prog, h1, h2⟩

end Dal
