import Verif.Script.CompileModel

/-! # Compiled runs on two number types -/

namespace Dal.Script

variable {D E : Type}

/-- A map between number types that keeps the operators and the comparisons. -/
structure OpsHom (o : Ops D) (o' : Ops E) (h : D → E) : Prop where
  zero : o'.zero = h o.zero
  add : ∀ a b, o'.add (h a) (h b) = h (o.add a b)
  sub : ∀ a b, o'.sub (h a) (h b) = h (o.sub a b)
  mul : ∀ a b, o'.mul (h a) (h b) = h (o.mul a b)
  div : ∀ a b, o'.div (h a) (h b) = h (o.div a b)
  pow : ∀ a b, o'.pow (h a) (h b) = h (o.pow a b)
  neg : ∀ a, o'.neg (h a) = h (o.neg a)
  log : ∀ a, o'.log (h a) = h (o.log a)
  sqrt : ∀ a, o'.sqrt (h a) = h (o.sqrt a)
  exp : ∀ a, o'.exp (h a) = h (o.exp a)
  lt : ∀ a b, o'.lt (h a) (h b) = o.lt a b
  le : ∀ a b, o'.le (h a) (h b) = o.le a b
  eq : ∀ a b, o'.eq (h a) (h b) = o.eq a b

/-- The state on the other number type. -/
def RunSt.map (h : D → E) (s : RunSt D) : RunSt E := ⟨s.d.map h, s.b, fun k => h (s.σ k)⟩

/-- The sample on the other number type. -/
def Sample.map (h : D → E) (s : Sample D) : Sample E := ⟨h s.spot, h s.numeraire⟩

/-- The streams on the other number type. -/
def Streams.map (h : D → E) (s : Streams D) : Streams E := ⟨s.ns, s.cs.map h⟩

theorem constAt_hom (h : D → E) (ns : List Word) (cs : List D) (j : Nat) : constAt ns (cs.map h) j = (constAt ns cs j).map h := by
  rw [constAt, constAt]
  cases argAt ns j with
  | none => rfl
  | some k => simp

private theorem upd_hom (h : D → E) (σ : Nat → D) (k : Nat) (v : D) : (fun j => h (upd σ k v j)) = upd (fun j => h (σ j)) k (h v) := by
  funext j
  simp only [upd]
  split <;> rfl

private theorem semBin_hom {o : Ops D} {o' : Ops E} {h : D → E} (hh : OpsHom o o' h) (op : Op) :
    (semBin o op = none ∧ semBin o' op = none) ∨ ∃ f g, semBin o op = some f ∧ semBin o' op = some g ∧ ∀ a b, g (h a) (h b) = h (f a b) := by
  cases op <;> first
    | exact Or.inl ⟨rfl, rfl⟩
    | exact Or.inr ⟨_, _, rfl, rfl, hh.add⟩
    | exact Or.inr ⟨_, _, rfl, rfl, hh.sub⟩
    | exact Or.inr ⟨_, _, rfl, rfl, hh.mul⟩
    | exact Or.inr ⟨_, _, rfl, rfl, hh.div⟩
    | exact Or.inr ⟨_, _, rfl, rfl, hh.pow⟩
    | exact Or.inr ⟨_, _, rfl, rfl, fun a b => by simp only [hh.lt]; split <;> rfl⟩

private theorem semConst_hom {o : Ops D} {o' : Ops E} {h : D → E} (hh : OpsHom o o' h) (op : Op) :
    (semConst o op = none ∧ semConst o' op = none) ∨ ∃ f g, semConst o op = some f ∧ semConst o' op = some g ∧ ∀ a b, g (h a) (h b) = h (f a b) := by
  cases op <;> first
    | exact Or.inl ⟨rfl, rfl⟩
    | exact Or.inr ⟨_, _, rfl, rfl, fun a b => hh.add b a⟩
    | exact Or.inr ⟨_, _, rfl, rfl, fun a b => hh.sub b a⟩
    | exact Or.inr ⟨_, _, rfl, rfl, fun a b => hh.sub a b⟩
    | exact Or.inr ⟨_, _, rfl, rfl, fun a b => hh.mul b a⟩
    | exact Or.inr ⟨_, _, rfl, rfl, fun a b => hh.div b a⟩
    | exact Or.inr ⟨_, _, rfl, rfl, fun a b => hh.div a b⟩
    | exact Or.inr ⟨_, _, rfl, rfl, fun a b => hh.pow b a⟩
    | exact Or.inr ⟨_, _, rfl, rfl, fun a b => hh.pow a b⟩
    | exact Or.inr ⟨_, _, rfl, rfl, fun a b => by simp only [hh.lt]; split <;> rfl⟩

private theorem semUn_hom {o : Ops D} {o' : Ops E} {h : D → E} (hh : OpsHom o o' h) (op : Op) :
    (semUn o op = none ∧ semUn o' op = none) ∨ ∃ f g, semUn o op = some f ∧ semUn o' op = some g ∧ ∀ a, g (h a) = h (f a) := by
  cases op <;> first
    | exact Or.inl ⟨rfl, rfl⟩
    | exact Or.inr ⟨_, _, rfl, rfl, hh.sqrt⟩
    | exact Or.inr ⟨_, _, rfl, rfl, hh.log⟩
    | exact Or.inr ⟨_, _, rfl, rfl, hh.exp⟩
    | exact Or.inr ⟨_, _, rfl, rfl, hh.neg⟩

private theorem semCmp_hom {o : Ops D} {o' : Ops E} {h : D → E} (hh : OpsHom o o' h) (op : Op) :
    (semCmp o op = none ∧ semCmp o' op = none) ∨ ∃ f g, semCmp o op = some f ∧ semCmp o' op = some g ∧ ∀ a, g (h a) = f a := by
  cases op <;> first
    | exact Or.inl ⟨rfl, rfl⟩
    | exact Or.inr ⟨_, _, rfl, rfl, fun a => (congrArg (o'.eq (h a)) hh.zero.symm).trans (hh.eq _ _)⟩
    | exact Or.inr ⟨_, _, rfl, rfl, fun a => hh.zero ▸ hh.eq _ _⟩
    | exact Or.inr ⟨_, _, rfl, rfl, fun a => hh.zero ▸ hh.lt _ _⟩
    | exact Or.inr ⟨_, _, rfl, rfl, fun a => hh.zero ▸ hh.le _ _⟩

theorem step_hom {o : Ops D} {o' : Ops E} {h : D → E} (hh : OpsHom o o' h) (ns : List Word) (cs : List D) (sp : Sample D) (i : Nat) (op : Op) (s : RunSt D) :
    step o' ns (cs.map h) (sp.map h) i op (s.map h) = (step o ns cs sp i op s).map fun r => (r.1, r.2.map h) := by
  obtain ⟨d, b, σ⟩ := s
  unfold step
  rcases semBin_hom hh op with ⟨e1, e2⟩ | ⟨f, g, e1, e2, hfg⟩
  rotate_left
  · rw [e1, e2]
    match d with
    | [] => rfl
    | [_] => rfl
    | y :: x :: d => simp [RunSt.map, hfg]
  rw [e1, e2]
  dsimp only
  clear e1 e2
  rcases semConst_hom hh op with ⟨e1, e2⟩ | ⟨f, g, e1, e2, hfg⟩
  rotate_left
  · rw [e1, e2, constAt_hom]
    cases constAt ns cs (i + 1) with
    | none => cases d <;> rfl
    | some c =>
      match d with
      | [] => rfl
      | x :: d => simp [RunSt.map, hfg]
  rw [e1, e2]
  dsimp only
  clear e1 e2
  rcases semUn_hom hh op with ⟨e1, e2⟩ | ⟨f, g, e1, e2, hfg⟩
  rotate_left
  · rw [e1, e2]
    match d with
    | [] => rfl
    | x :: d => simp [RunSt.map, hfg]
  rw [e1, e2]
  dsimp only
  clear e1 e2
  rcases semCmp_hom hh op with ⟨e1, e2⟩ | ⟨f, g, e1, e2, hfg⟩
  rotate_left
  · rw [e1, e2]
    match d with
    | [] => rfl
    | x :: d =>
      simp only [RunSt.map, List.map_cons, hfg]
      cases b.push (f x) <;> rfl
  rw [e1, e2]
  dsimp only
  clear e1 e2
  cases op <;> first | rfl | skip
  case var => dsimp only; cases argAt ns (i + 1) <;> rfl
  case const => dsimp only; rw [constAt_hom]; cases constAt ns cs (i + 1) <;> rfl
  case constVar => dsimp only; rw [constAt_hom]; cases constAt ns cs (i + 1) <;> rfl
  case assign =>
    dsimp only
    cases argAt ns (i + 1) with
    | none => cases d <;> rfl
    | some k =>
      match d with
      | [] => rfl
      | x :: d => simp [RunSt.map, upd_hom]
  case assignConst =>
    dsimp only
    rw [constAt_hom]
    cases constAt ns cs (i + 1) with
    | none => rfl
    | some c =>
      cases argAt ns (i + 2) with
      | none => rfl
      | some k => simp [RunSt.map, upd_hom]
  case pays =>
    dsimp only
    cases argAt ns (i + 1) with
    | none => cases d <;> rfl
    | some k =>
      match d with
      | [] => rfl
      | x :: d => simp [RunSt.map, Sample.map, upd_hom, hh.add, hh.div]
  case paysConst =>
    dsimp only
    rw [constAt_hom]
    cases constAt ns cs (i + 1) with
    | none => rfl
    | some c =>
      cases argAt ns (i + 2) with
      | none => rfl
      | some k => simp [RunSt.map, Sample.map, upd_hom, hh.add, hh.div]
  all_goals
    obtain ⟨items, u⟩ := b
    dsimp only [RunSt.map]
  case iff =>
    match items with
    | [] => rfl
    | true :: r => rfl
    | false :: r => dsimp only; cases argAt ns (i + 1) <;> rfl
  case and =>
    match items with
    | [] => rfl
    | [_] => rfl
    | _ :: _ :: r => rfl
  case or =>
    match items with
    | [] => rfl
    | [_] => rfl
    | _ :: _ :: r => rfl
  case not =>
    match items with
    | [] => rfl
    | _ :: r => rfl
  case true' => cases BStack.push ⟨items, u⟩ true <;> rfl
  case false' => cases BStack.push ⟨items, u⟩ false <;> rfl

private theorem act_hom_step {o : Ops D} {ns : List Word} {cs : List D} {sp : Sample D} {j : Nat} {s : RunSt D} {op : Op} (hw : ns[j]? = some (.op op)) (hop : op ≠ .ifElse) :
    act o ns cs sp j s = (step o ns cs sp j op s).map fun r => .goto r.1 r.2 := by
  unfold act
  rw [hw]
  cases op <;> first | rfl | exact absurd rfl hop

theorem run_hom {o : Ops D} {o' : Ops E} {h : D → E} (hh : OpsHom o o' h) (ns : List Word) (cs : List D) (sp : Sample D) : ∀ (fuel n j : Nat) (s : RunSt D),
    run o' ns (cs.map h) (sp.map h) fuel n j (s.map h) = (run o ns cs sp fuel n j s).map (RunSt.map h) := by
  intro fuel
  induction fuel with
  | zero => intro n j s; rfl
  | succ fuel ih =>
    intro n j s
    rw [run, run]
    by_cases hj : j < n
    rotate_left
    · rw [if_neg hj, if_neg hj]; rfl
    rw [if_pos hj, if_pos hj]
    have go : ∀ (k : Nat) (s' : RunSt D), (if (s'.map h).fits then run o' ns (cs.map h) (sp.map h) fuel n k (s'.map h) else none) =
        (if s'.fits then run o ns cs sp fuel n k s' else none).map (RunSt.map h) := by
      intro k s'
      have hf : (s'.map h).fits ↔ s'.fits := by simp [RunSt.map, RunSt.fits]
      by_cases hfit : s'.fits
      · rw [if_pos (hf.2 hfit), if_pos hfit]; exact ih n k s'
      · rw [if_neg (fun q => hfit (hf.1 q)), if_neg hfit]; rfl
    cases hw : ns[j]? with
    | none =>
      unfold act
      rw [hw]; rfl
    | some w =>
      cases w with
      | arg a =>
        unfold act
        rw [hw]; rfl
      | op op =>
        by_cases hop : op = .ifElse
        · subst hop
          unfold act
          rw [hw]
          dsimp only
          obtain ⟨d, ⟨items, u⟩, σ⟩ := s
          match items with
          | [] => rfl
          | false :: rest =>
            dsimp only [RunSt.map]
            cases argAt ns (j + 1) with
            | none => rfl
            | some k => exact go k ⟨d, BStack.pop ⟨false :: rest, u⟩, σ⟩
          | true :: rest =>
            dsimp only [RunSt.map]
            cases argAt ns (j + 1) with
            | none => rfl
            | some m =>
              cases argAt ns (j + 2) with
              | none => rfl
              | some k =>
                dsimp only
                rw [show (⟨[], {}, fun k => h (σ k)⟩ : RunSt E) = RunSt.map h ⟨[], {}, σ⟩ from rfl, ih]
                cases run o ns cs sp fuel (if m = 0 then ns.length else m) (j + 3) ⟨[], {}, σ⟩ with
                | none => rfl
                | some r => exact ih n k { r with b := r.b.pop }
        · rw [act_hom_step hw hop, act_hom_step hw hop, step_hom hh]
          cases step o ns cs sp j op s with
          | none => rfl
          | some r => exact go r.1 r.2

/-- Compiled runs commute with maps that keep the operators and the comparisons. -/
theorem evaluateCompiled_hom {o : Ops D} {o' : Ops E} {h : D → E} (hh : OpsHom o o' h) (fuel : Nat) : ∀ (es : List (Streams D × Sample D)) (σ : Nat → D),
    evaluateCompiled o' fuel (es.map fun e => (e.1.map h, e.2.map h)) (fun k => h (σ k)) = (evaluateCompiled o fuel es σ).map fun r => fun k => h (r k) := by
  intro es
  induction es with
  | nil => intro σ; rfl
  | cons e es ih =>
    obtain ⟨s, sp⟩ := e
    intro σ
    rw [List.map_cons, evaluateCompiled, evaluateCompiled]
    dsimp only [Streams.map]
    rw [show (⟨[], {}, fun k => h (σ k)⟩ : RunSt E) = RunSt.map h ⟨[], {}, σ⟩ from rfl, run_hom hh]
    cases run o s.ns s.cs sp fuel s.ns.length 0 ⟨[], {}, σ⟩ with
    | none => rfl
    | some r => exact ih r.σ

end Dal.Script
