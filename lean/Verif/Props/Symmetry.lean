import Verif.Props.Seminorm
import Verif.Props.FixedStep

/-!
Properties C91-C93: symmetries of integration. Batches in adaptive integration (C91), translation in time (C92), linear
invariants (C93).
-/

set_option linter.unusedSectionVars false
set_option linter.unusedSimpArgs false

namespace Torchdyn

open Spec

/-! ### C91: reordering and repeating the samples of a batch -/

section batch

variable {ι κ A : Type} [Fintype ι] [Fintype κ]

/-- Every entry of the small tensor occurs `c` times in the large one. -/
def EquallyOften (π : κ → ι) (c : ℕ) : Prop := ∀ i, Nat.card {k // π k = i} = c

theorem sum_pullback {π : κ → ι} {c : ℕ} (h : EquallyOften π c) (u : ι → ℝ) :
    ∑ k, u (π k) = c * ∑ i, u i := by
  classical
  rw [← Finset.sum_fiberwise' Finset.univ π u, Finset.mul_sum]
  refine Finset.sum_congr rfl (fun i _ => ?_)
  rw [Finset.sum_const, nsmul_eq_mul, ← h i, Nat.card_eq_fintype_card, Fintype.card_subtype]

theorem card_pullback {π : κ → ι} {c : ℕ} (h : EquallyOften π c) :
    (Fintype.card κ : ℝ) = c * Fintype.card ι := by
  have := sum_pullback h (fun _ => 1)
  simpa using this

theorem hairerNorm_pullback {π : κ → ι} {c : ℕ} (h : EquallyOften π c) (hc : 0 < c) (u : ι → ℝ) :
    hairerNorm (fun k => u (π k)) = hairerNorm u := by
  unfold hairerNorm hairerNormOn
  rw [sum_pullback h (fun i => |u i| ^ 2), Finset.card_univ, Finset.card_univ, card_pullback h,
    mul_div_mul_left _ _ (by exact_mod_cast hc.ne')]

theorem initStep_pullback {π : κ → ι} {c : ℕ} (h : EquallyOften π c) (hc : 0 < c)
    (f : ℝ → (ι → ℝ) → (ι → ℝ)) (g : ℝ → (κ → ℝ) → (κ → ℝ)) (hfg : ∀ t x, g t (x ∘ π) = f t x ∘ π)
    (f0 x0 : ι → ℝ) (t0 : ℝ) (order : ℕ) (atol rtol : ℝ) :
    initStep (m := Except PyErr) (pureField g) (f0 ∘ π) (x0 ∘ π) t0 order atol rtol =
      initStep (m := Except PyErr) (pureField f) f0 x0 t0 order atol rtol := by
  have e : ∀ u : ι → ℝ, hairerNorm (fun k => u (π k) / (atol + |x0 (π k)| * rtol)) =
      hairerNorm (fun i => u i / (atol + |x0 i| * rtol)) :=
    fun u => hairerNorm_pullback h hc (fun i => u i / (atol + |x0 i| * rtol))
  simp only [initStep, Function.comp, e]
  have e2 : ∀ h0 : ℝ, g (t0 + h0) (fun k => x0 (π k) + h0 * f0 (π k)) =
      f (t0 + h0) (fun i => x0 i + h0 * f0 i) ∘ π := fun h0 => hfg _ (fun i => x0 i + h0 * f0 i)
  simp only [pureField, e2, bind, Except.bind, pure, Except.pure, Function.comp]
  have e3 : ∀ u : ι → ℝ, hairerNorm (fun k => (u (π k) - f0 (π k)) / (atol + |x0 (π k)| * rtol)) =
      hairerNorm (fun i => (u i - f0 i) / (atol + |x0 i| * rtol)) :=
    fun u => hairerNorm_pullback h hc (fun i => (u i - f0 i) / (atol + |x0 i| * rtol))
  simp only [e3]

theorem cfg_pullback (tsit : Bool) {π : κ → ι} {c : ℕ} (h : EquallyOften π c) (hc : 0 < c)
    (f : ℝ → (ι → ℝ) → (ι → ℝ)) (g : ℝ → (κ → ℝ) → (κ → ℝ)) (hfg : ∀ t x, g t (x ∘ π) = f t x ∘ π)
    (args : A) (atol rtol : ℝ) (ui rae : Bool) :
    CfgMap (LinearMap.funLeft ℝ ℝ π)
      (odeintCfg (pureField f) (libSolver tsit ι A) args atol rtol Finset.univ
        (odeintInterp (libSolver tsit ι A) ui) rae)
      (odeintCfg (pureField g) (libSolver tsit κ A) args atol rtol Finset.univ
        (odeintInterp (libSolver tsit κ A) ui) rae) := by
  refine ⟨?_, ?_, ?_, rfl, ?_⟩
  · exact fun x t dt k => libSolver_step tsit (LinearMap.funLeft ℝ ℝ π) f g (fun t x => (hfg t x).symm) x t dt k args
  · exact fun x x' e => hairerNorm_pullback h hc (errorScaled atol rtol x x' e)
  · funext dt er
    cases tsit <;> rfl
  · cases tsit with
    | true => exact Or.inl ⟨rfl, rfl⟩
    | false =>
      cases ui with
      | false => exact Or.inl ⟨rfl, rfl⟩
      | true => exact Or.inr ⟨_, _, rfl, rfl, fun t dt k k' x x' st tq => dense_map _ _ _ _ _ _ _ _ _ _⟩

/-- **C91.** Let `g` act on a batch obtained from another by reordering the samples and repeating each of them the same
number `c ≥ 1` of times (`π` tells which entry of the small batch an entry of the large one copies). Then the adaptive
solvers, on every grid in either direction, for every setting, take the same steps on both: same times, same errors
raised, same number of iterations, and the large result is the small one with its entries copied. -/
theorem C91_batch (tsit : Bool) {π : κ → ι} {c : ℕ} (h : EquallyOften π c) (hc : 0 < c)
    (f : ℝ → (ι → ℝ) → (ι → ℝ)) (g : ℝ → (κ → ℝ) → (κ → ℝ)) (hfg : ∀ t x, g t (x ∘ π) = f t x ∘ π)
    (x : ι → ℝ) (tSpan : List ℝ) (atol rtol : ℝ) (ui rae : Bool) (saveAt : List ℝ) (args : A) (fuel : ℕ) :
    odeint fuel (pureField g) (x ∘ π) tSpan (libSolver tsit κ A) atol rtol ui rae saveAt args Finset.univ =
      (odeint fuel (pureField f) x tSpan (libSolver tsit ι A) atol rtol ui rae saveAt args Finset.univ).map
        (Option.map (fun r => (r.1, r.2.map (fun y => y ∘ π)))) := by
  have hι : (libSolver tsit ι A).adaptive = true := by cases tsit <;> rfl
  have hκ : (libSolver tsit κ A).adaptive = true := by cases tsit <;> rfl
  have ho : (libSolver tsit ι A).order = (libSolver tsit κ A).order := by cases tsit <;> rfl
  match tSpan with
  | [] => rfl
  | [_] => rfl
  | t0 :: t1 :: rest =>
    rcases le_or_gt t0 t1 with hd | hd
    · obtain ⟨d1, -, hi1, e1⟩ := odeint_forward fuel g (x ∘ π) rest (libSolver tsit κ A) hκ atol rtol ui rae
        saveAt args Finset.univ hd
      obtain ⟨d2, -, hi2, e2⟩ := odeint_forward fuel f x rest (libSolver tsit ι A) hι atol rtol ui rae
        saveAt args Finset.univ hd
      rw [hfg, initStep_pullback h hc f g hfg, ← ho, hi2] at hi1
      have hd12 : d2 = d1 := Except.ok.inj hi1
      rw [e1, e2, hfg, ← hd12]
      exact (cfg_pullback tsit h hc f g hfg args atol rtol ui rae).odeint fuel (f t0 x) x d2 _
    · obtain ⟨dt, hdt, hi⟩ := initStep_pos f (-f (-(-t0)) x) x (-t0) (libSolver tsit ι A).order atol rtol
      have hi' : initStep (m := Except PyErr) (pureField g) (-g (-(-t0)) (x ∘ π)) (x ∘ π) (-t0)
          (libSolver tsit κ A).order atol rtol = .ok dt := by
        rw [hfg, ← ho]
        exact (initStep_pullback h hc f g hfg (-f (-(-t0)) x) x (-t0) _ atol rtol).trans hi
      have key : ∀ {η : Type} [Fintype η] (F : ℝ → (η → ℝ) → (η → ℝ)) (y : η → ℝ)
          (S : Solver (Except PyErr) ℝ (η → ℝ) A) (hS : S.adaptive = true)
          (hF : initStep (m := Except PyErr) (pureField F) (-F (-(-t0)) y) y (-t0) S.order atol rtol = .ok dt),
          odeint fuel (pureField F) y (t0 :: t1 :: rest) S atol rtol ui rae saveAt args Finset.univ =
          adaptiveOdeint (odeintCfg (pureField (fun t x => -F (-t) x)) S args atol rtol Finset.univ
            (odeintInterp S ui) rae) fuel (-F (-(-t0)) y) y dt ((t0 :: t1 :: rest).map (fun t => -t)) := by
        intro η _ F y S hS hF
        have hk : reverseField (pureField (m := Except PyErr) F) (-t0) y = .ok (-F (-(-t0)) y) := rfl
        simp only [odeint, odeintDirection, getItem, List.getElem?_cons_succ, List.map_cons,
          List.getElem?_cons_zero, pure_bind, if_pos hd, hS, if_true, hk]
        simp only [bind, Except.bind, hF]
        rfl
      rw [key g _ _ hκ hi', key f _ _ hι hi, hfg]
      exact (cfg_pullback tsit h hc (fun t x => -f (-t) x) (fun t x => -g (-t) x)
        (fun t x => by rw [hfg]; rfl) args atol rtol ui rae).odeint fuel (-f (-(-t0)) x) x dt _

/-- **C91**, permutations: reordering the samples of a batch reorders the results. `β` indexes the samples, `δ` the
entries of one sample, and the same field acts on every sample. -/
theorem C91_permute (tsit : Bool) {β δ : Type} [Fintype β] [Fintype δ] (σ : Equiv.Perm β)
    (f : ℝ → (δ → ℝ) → (δ → ℝ)) (x : β × δ → ℝ) (tSpan : List ℝ) (atol rtol : ℝ) (ui rae : Bool)
    (saveAt : List ℝ) (args : A) (fuel : ℕ) :
    let F : ℝ → (β × δ → ℝ) → (β × δ → ℝ) := fun t y p => f t (fun d => y (p.1, d)) p.2
    let perm : (β × δ → ℝ) → (β × δ → ℝ) := fun y p => y (σ p.1, p.2)
    odeint fuel (pureField F) (perm x) tSpan (libSolver tsit (β × δ) A) atol rtol ui rae saveAt args Finset.univ =
      (odeint fuel (pureField F) x tSpan (libSolver tsit (β × δ) A) atol rtol ui rae saveAt args Finset.univ).map
        (Option.map (fun r => (r.1, r.2.map perm))) := by
  refine C91_batch tsit (π := fun p : β × δ => (σ p.1, p.2)) (c := 1) ?_ one_pos _ _ (fun t x => rfl) x tSpan atol
    rtol ui rae saveAt args fuel
  intro p
  rw [Nat.card_eq_one_iff_unique]
  refine ⟨⟨fun a b => ?_⟩, ⟨⟨(σ.symm p.1, p.2), by simp⟩⟩⟩
  obtain ⟨⟨a1, a2⟩, ha⟩ := a
  obtain ⟨⟨b1, b2⟩, hb⟩ := b
  have e := ha.trans hb.symm
  simp only [Prod.mk.injEq, EmbeddingLike.apply_eq_iff_eq] at e
  exact Subtype.ext (Prod.ext e.1 e.2)

/-- **C91**, repetition: a batch that consists of `c` copies of each sample gives `c` copies of each result. In
particular a batch of copies of one sample is integrated like the sample alone. -/
theorem C91_repeat (tsit : Bool) {β δ : Type} [Fintype β] [Fintype δ] (c : ℕ) (hc : 0 < c)
    (f : ℝ → (δ → ℝ) → (δ → ℝ)) (x : β × δ → ℝ) (tSpan : List ℝ) (atol rtol : ℝ) (ui rae : Bool)
    (saveAt : List ℝ) (args : A) (fuel : ℕ) :
    let copies : (β × δ → ℝ) → ((Fin c × β) × δ → ℝ) := fun y p => y (p.1.2, p.2)
    odeint fuel (pureField (fun t y (p : (Fin c × β) × δ) => f t (fun d => y (p.1, d)) p.2)) (copies x) tSpan
        (libSolver tsit ((Fin c × β) × δ) A) atol rtol ui rae saveAt args Finset.univ =
      (odeint fuel (pureField (fun t y (p : β × δ) => f t (fun d => y (p.1, d)) p.2)) x tSpan
        (libSolver tsit (β × δ) A) atol rtol ui rae saveAt args Finset.univ).map
        (Option.map (fun r => (r.1, r.2.map copies))) := by
  refine C91_batch tsit (π := fun p : (Fin c × β) × δ => (p.1.2, p.2)) (c := c) ?_ hc _ _ (fun t x => rfl) x tSpan
    atol rtol ui rae saveAt args fuel
  intro p
  have e : {k : (Fin c × β) × δ // (k.1.2, k.2) = p} ≃ Fin c :=
    { toFun := fun k => k.1.1.1
      invFun := fun j => ⟨((j, p.1), p.2), rfl⟩
      left_inv := by rintro ⟨⟨⟨j, b⟩, d⟩, rfl⟩; rfl
      right_inv := fun j => rfl }
  rw [Nat.card_congr e, Nat.card_eq_fintype_card, Fintype.card_fin]

/-- Non-vacuity of C91: swapping the two samples of a batch. -/
example : EquallyOften (fun b : Fin 2 => 1 - b) 1 := by
  intro i
  rw [Nat.card_eq_fintype_card]
  revert i
  decide

end batch

/-! ### C92: translation in time -/

section shift

variable {K V : Type} [Field K] [LinearOrder K] [IsStrictOrderedRing K]

/-- Move every time of the loop state by `c`. -/
def AState.shift (c : K) (s : AState K V) : AState K V :=
  { s with t := s.t + c, evalTimes := s.evalTimes.map (· + c) }

/-- Two configurations of the adaptive loop, one of which runs `c` later. -/
structure CfgShift (c : K) (cfg cfg' : AdaptiveCfg (Except PyErr) K V) : Prop where
  step : ∀ x t dt k, cfg'.step x (t + c) dt k = cfg.step x t dt k
  err : cfg'.errRatio = cfg.errRatio
  adapt : cfg'.adapt = cfg.adapt
  all : cfg'.returnAllEval = cfg.returnAllEval
  interp : (cfg.interp = none ∧ cfg'.interp = none) ∨ ∃ d d', cfg.interp = some d ∧
    cfg'.interp = some d' ∧ ∀ t dt k k' x x' st tq, d' (t + c) dt k k' x x' st (tq + c) = d t dt k k' x x' st tq

variable {c : K} {cfg cfg' : AdaptiveCfg (Except PyErr) K V}

theorem interpCkpts_shift (d d' : K → V) (h : ∀ t, d' (t + c) = d t) (tNew : K) (rest : List K) (n : ℕ)
    (et : List K) (sol : List V) :
    interpCkpts d' (tNew + c) (rest.map (· + c)) n (et.map (· + c)) sol =
      ((interpCkpts d tNew rest n et sol).1, (interpCkpts d tNew rest n et sol).2.1.map (· + c),
        (interpCkpts d tNew rest n et sol).2.2) := by
  induction rest generalizing n et sol with
  | nil => rfl
  | cons te rest ih =>
    simp only [interpCkpts, List.map_cons, add_lt_add_iff_right]
    split_ifs
    · rw [← ih]; simp [h]
    · rfl

theorem CfgShift.accept (h : CfgShift c cfg cfg') (tEval : List K) (s : AState K V) (dt : K) (k x : V)
    (st : List V) :
    acceptStep cfg' (tEval.map (· + c)) (s.shift c) dt k x st =
      (acceptStep cfg tEval s dt k x st).map (AState.shift c) := by
  have e : interpPhase cfg' (tEval.map (· + c)) (s.shift c) dt k x st =
      ((interpPhase cfg tEval s dt k x st).1, (interpPhase cfg tEval s dt k x st).2.1.map (· + c),
        (interpPhase cfg tEval s dt k x st).2.2) := by
    rcases h.interp with ⟨h1, h2⟩ | ⟨d, d', h1, h2, h3⟩
    · simp only [interpPhase, h1, h2]; rfl
    · simp only [interpPhase, h1, h2, AState.shift, ← List.map_drop]
      rw [show s.t + c + dt = s.t + dt + c by ring]
      exact interpCkpts_shift _ _ (fun tq => h3 _ _ _ _ _ _ _ _) _ _ _ _ _
  have hg : (getItem (tEval.map (· + c)) (interpPhase cfg tEval s dt k x st).1 : Except PyErr K) =
      (getItem tEval (interpPhase cfg tEval s dt k x st).1 : Except PyErr K).map (· + c) := by
    simp only [getItem, List.getElem?_map]
    cases tEval[(interpPhase cfg tEval s dt k x st).1]? <;> rfl
  simp only [acceptStep, e, h.all, hg]
  cases (getItem tEval (interpPhase cfg tEval s dt k x st).1 : Except PyErr K) with
  | error e => rfl
  | ok te =>
    have ht : (s.shift c).t + dt = te + c ↔ s.t + dt = te := by
      show s.t + c + dt = te + c ↔ _
      constructor <;> intro h <;> linear_combination h
    simp only [bind, Except.bind, pure, Except.pure, Except.map, ht]
    have hsh : s.t + c + dt = s.t + dt + c := by ring
    by_cases h1 : s.t + dt = te <;> by_cases h2 : cfg.returnAllEval = true <;>
      simp [h1, h2, AState.shift, hsh]

theorem CfgShift.iter (h : CfgShift c cfg cfg') (tEval : List K) (T : K) (s : AState K V) :
    adaptiveIter cfg' (tEval.map (· + c)) (T + c) (s.shift c) =
      (adaptiveIter cfg tEval T s).map (AState.shift c) := by
  have hi : cfg'.interp.isSome = cfg.interp.isSome := by
    rcases h.interp with ⟨h1, h2⟩ | ⟨d, d', h1, h2, _⟩ <;> rw [h1, h2] <;> rfl
  have hcl : clampDt (T + c) (s.shift c) = clampDt T s := by
    simp only [clampDt, AState.shift, add_right_comm s.t c, add_lt_add_iff_right, add_sub_add_right_eq_sub]
  have hc : checkpointDt cfg'.interp.isSome (tEval.map (· + c)) (s.shift c) (clampDt (T + c) (s.shift c)) =
      checkpointDt cfg.interp.isSome tEval s (clampDt T s) := by
    rw [hi, hcl]
    simp only [checkpointDt, List.getElem?_map]
    have hck : (s.shift c).ckpt = s.ckpt := rfl
    rw [hck]
    cases tEval[s.ckpt]? with
    | none => rfl
    | some te =>
      simp only [Option.map_some, AState.shift, add_right_comm s.t c, add_lt_add_iff_right,
        add_sub_add_right_eq_sub]
  have hst : ∀ d, cfg'.step (s.shift c).x (s.shift c).t d (s.shift c).k1 = cfg.step s.x s.t d s.k1 :=
    fun d => h.step _ _ _ _
  simp only [adaptiveIter, hc, hst, h.adapt, h.err]
  cases cfg.step s.x s.t (checkpointDt cfg.interp.isSome tEval s (clampDt T s)).1 s.k1 with
  | error e => rfl
  | ok o =>
    cases o with
    | three => rfl
    | four k x e st =>
      simp only [Except.map, bind, Except.bind, StepOut.unpack4, pure, Except.pure]
      have hx : (s.shift c).x = s.x := rfl
      rw [hx]
      by_cases hacc : cfg.errRatio s.x x e ≤ 1
      · rw [if_pos hacc, if_pos hacc, h.accept]
        cases acceptStep cfg tEval s (checkpointDt cfg.interp.isSome tEval s (clampDt T s)).1 k x st <;>
          rfl
      · rw [if_neg hacc, if_neg hacc]
        rfl

theorem CfgShift.loop (h : CfgShift c cfg cfg') (tEval : List K) (T : K) (fuel : ℕ) : ∀ s : AState K V,
    adaptiveLoop cfg' (tEval.map (· + c)) (T + c) fuel (s.shift c) =
      (adaptiveLoop cfg tEval T fuel s).map (Option.map (AState.shift c)) := by
  induction fuel with
  | zero => intro s; rfl
  | succ fuel ih =>
    intro s
    have : (s.shift c).t < T + c ↔ s.t < T := add_lt_add_iff_right c
    simp only [adaptiveLoop, this]
    split_ifs
    · rw [h.iter]
      cases adaptiveIter cfg tEval T s with
      | error e => rfl
      | ok s' => exact ih s'
    · rfl

theorem CfgShift.odeint (h : CfgShift c cfg cfg') (fuel : ℕ) (k x : V) (dt : K) (ts : List K) :
    adaptiveOdeint cfg' fuel k x dt (ts.map (· + c)) =
      (adaptiveOdeint cfg fuel k x dt ts).map (Option.map (fun r => (r.1.map (· + c), r.2))) := by
  have hg : ∀ i : ℕ, (getItem (ts.map (· + c)) i : Except PyErr K) = (getItem ts i : Except PyErr K).map (· + c) := by
    intro i
    simp only [getItem, List.getElem?_map]
    cases ts[i]? <;> rfl
  simp only [adaptiveOdeint, hg, List.length_map, ← List.map_drop]
  cases (getItem ts 0 : Except PyErr K) with
  | error e => rfl
  | ok t0 =>
    cases (getItem ts (ts.length - 1) : Except PyErr K) with
    | error e => rfl
    | ok T =>
      simp only [bind, Except.bind, Except.map]
      have := h.loop (ts.drop 1) T fuel (adaptiveInit k x dt t0)
      have e : (adaptiveInit k x dt t0).shift c = adaptiveInit k x dt (t0 + c) := rfl
      rw [e] at this
      rw [this]
      cases adaptiveLoop cfg (ts.drop 1) T fuel (adaptiveInit k x dt t0) with
      | error e => rfl
      | ok r => cases r <;> rfl

end shift

section translate

variable {ι A : Type} [Fintype ι]

theorem rk7_shift (tab : Tableau ℝ) (f : ℝ → (ι → ℝ) → (ι → ℝ)) (c : ℝ) (x : ι → ℝ) (t dt : ℝ) (k1 : Option (ι → ℝ))
    (args : A) :
    rk7Step (m := Except PyErr) tab (pureField (fun t x => f (t - c) x)) x (t + c) dt k1 args =
      rk7Step tab (pureField f) x t dt k1 args := by
  have e : ∀ a : ℝ, t + c + a - c = t + a := fun a => by ring
  cases k1 <;> simp only [rk7Step, firstStage, pureField, e, add_sub_cancel_right]

theorem fourthOrderDense_shift (b : List ℝ) (c t dt : ℝ) (k k' x x' : ι → ℝ) (st : List (ι → ℝ)) (tq : ℝ) :
    fourthOrderDense b (t + c) dt k k' x x' st (tq + c) = fourthOrderDense b t dt k k' x x' st tq := by
  simp only [fourthOrderDense, interpEvaluate, add_right_comm t c dt, add_sub_add_right_eq_sub]

theorem cfg_shift (tsit : Bool) (f : ℝ → (ι → ℝ) → (ι → ℝ)) (c : ℝ) (args : A) (atol rtol : ℝ) (sel : Finset ι)
    (ui rae : Bool) :
    CfgShift c
      (odeintCfg (pureField f) (libSolver tsit ι A) args atol rtol sel (odeintInterp (libSolver tsit ι A) ui) rae)
      (odeintCfg (pureField (fun t x => f (t - c) x)) (libSolver tsit ι A) args atol rtol sel
        (odeintInterp (libSolver tsit ι A) ui) rae) := by
  refine ⟨?_, rfl, rfl, rfl, ?_⟩
  · intro x t dt k
    cases tsit <;> exact rk7_shift _ f c x t dt (some k) args
  · cases tsit with
    | true => exact Or.inl ⟨rfl, rfl⟩
    | false =>
      cases ui with
      | false => exact Or.inl ⟨rfl, rfl⟩
      | true => exact Or.inr ⟨_, _, rfl, rfl, fun t dt k k' x x' st tq => fourthOrderDense_shift _ _ _ _ _ _ _ _ _ _⟩

theorem initStep_shift (f : ℝ → (ι → ℝ) → (ι → ℝ)) (c : ℝ) (f0 x0 : ι → ℝ) (t0 : ℝ) (order : ℕ) (atol rtol : ℝ) :
    initStep (m := Except PyErr) (pureField (fun t x => f (t - c) x)) f0 x0 (t0 + c) order atol rtol =
      initStep (m := Except PyErr) (pureField f) f0 x0 t0 order atol rtol := by
  have e : ∀ a : ℝ, t0 + c + a - c = t0 + a := fun a => by ring
  simp only [initStep, pureField, e]

/-- **C92.** Adaptive integration does not depend on the origin of time: integrating `f(t - c, x)` over `t_span + c`
gives the states of `f(t, x)` over `t_span`, at the times moved by `c`, with the same steps, for every increasing
grid and every setting. For autonomous fields the two problems have the same field. -/
theorem C92_translation (tsit : Bool) (f : ℝ → (ι → ℝ) → (ι → ℝ)) (c : ℝ) (x : ι → ℝ) (t0 t1 : ℝ) (rest : List ℝ)
    (hd : t0 ≤ t1) (atol rtol : ℝ) (ui rae : Bool) (saveAt : List ℝ) (args : A) (sel : Finset ι) (fuel : ℕ) :
    odeint fuel (pureField (fun t x => f (t - c) x)) x ((t0 :: t1 :: rest).map (· + c)) (libSolver tsit ι A) atol rtol
        ui rae saveAt args sel =
      (odeint fuel (pureField f) x (t0 :: t1 :: rest) (libSolver tsit ι A) atol rtol ui rae saveAt args sel).map
        (Option.map (fun r => (r.1.map (· + c), r.2))) := by
  have hι : (libSolver tsit ι A).adaptive = true := by cases tsit <;> rfl
  obtain ⟨d1, -, hi1, e1⟩ := odeint_forward fuel (fun t x => f (t - c) x) x (rest.map (· + c)) (libSolver tsit ι A)
    hι atol rtol ui rae saveAt args sel (add_le_add_left hd c)
  obtain ⟨d2, -, hi2, e2⟩ := odeint_forward fuel f x rest (libSolver tsit ι A) hι atol rtol ui rae
    saveAt args sel hd
  simp only [add_sub_cancel_right] at hi1 e1
  rw [initStep_shift, hi2] at hi1
  rw [e2, ← (cfg_shift tsit f c args atol rtol sel ui rae).odeint, Except.ok.inj hi1]
  exact e1

/-- **C92 (partial)**, decreasing grids: the same for autonomous fields. The returned times are negated (C17), so they
move by `-c`.

Missing: fields that depend on time (`C92_backward_refuted`). -/
theorem C92_backward_partial (tsit : Bool) (f : (ι → ℝ) → (ι → ℝ)) (c : ℝ) (x : ι → ℝ) (t0 t1 : ℝ) (rest : List ℝ)
    (hd : t1 < t0) (atol rtol : ℝ) (ui rae : Bool) (saveAt : List ℝ) (args : A) (sel : Finset ι) (fuel : ℕ) :
    odeint fuel (pureField (fun _ x => f x)) x ((t0 :: t1 :: rest).map (· + c)) (libSolver tsit ι A) atol rtol
        ui rae saveAt args sel =
      (odeint fuel (pureField (fun _ x => f x)) x (t0 :: t1 :: rest) (libSolver tsit ι A) atol rtol ui rae saveAt args
        sel).map (Option.map (fun r => (r.1.map (· + -c), r.2))) := by
  have hι : (libSolver tsit ι A).adaptive = true := by cases tsit <;> rfl
  obtain ⟨dt, hdt, hi⟩ := initStep_pos (fun _ x => f x) (-f x) x (-t0) (libSolver tsit ι A).order atol rtol
  have key : ∀ (a b : ℝ) (l : List ℝ), b < a →
      initStep (m := Except PyErr) (pureField fun _ x => f x) (-f x) x (-a) (libSolver tsit ι A).order atol rtol =
        .ok dt →
      odeint fuel (pureField (fun _ x => f x)) x (a :: b :: l) (libSolver tsit ι A) atol rtol ui rae saveAt args sel =
      adaptiveOdeint (odeintCfg (pureField (fun _ x => -f x)) (libSolver tsit ι A) args atol rtol sel
        (odeintInterp (libSolver tsit ι A) ui) rae) fuel (-f x) x dt ((a :: b :: l).map (fun t => -t)) := by
    intro a b l hab hF
    have hk : reverseField (pureField (m := Except PyErr) fun _ x => f x) (-a) x = .ok (-f x) := rfl
    simp only [odeint, odeintDirection, getItem, List.getElem?_cons_succ, List.map_cons,
      List.getElem?_cons_zero, pure_bind, if_pos hab, hι, if_true, hk]
    simp only [bind, Except.bind, hF]
    rfl
  have hi' : initStep (m := Except PyErr) (pureField fun _ x => f x) (-f x) x (-(t0 + c)) (libSolver tsit ι A).order
      atol rtol = .ok dt := hi
  rw [List.map_cons, List.map_cons, key _ _ _ (add_lt_add_left hd c) hi', key _ _ _ hd hi,
    ← (cfg_shift tsit (fun _ x => -f x) (-c) args atol rtol sel ui rae).odeint]
  congr 1
  simp only [List.map_cons, List.map_map, List.cons.injEq, Function.comp_def, neg_add, and_self]


/-! #### Fixed-step solvers -/

theorem gridStates_shift {K V : Type} [Field K] (φ φ' : V → K → K → V) (c : K)
    (h : ∀ x t dt, φ' x (t + c) dt = φ x t dt) (ts : List K) : ∀ x,
    gridStates φ' x (ts.map (· + c)) = gridStates φ x ts := by
  induction ts with
  | nil => intro x; rfl
  | cons t ts ih =>
    intro x
    cases ts with
    | nil => rfl
    | cons t' ts =>
      simp only [List.map_cons, gridStates, h, add_sub_add_right_eq_sub]
      congr 1
      exact ih _

/-- **C92**, fixed-step solvers: on increasing grids accepted by `odeint` (the test of C12 uses relative distances, so
it is not itself invariant) the states are the same and the times move by `c`. -/
theorem C92_fixed {K V A : Type} [Field K] [LinearOrder K] [IsStrictOrderedRing K] [AddCommGroup V] [Module K V]
    (f : K → V → V) (c : K) (x : V) (t0 t1 : K) (rest : List K) (hd : t0 ≤ t1)
    (hsep : Separated (t0 :: t1 :: rest)) (hsep' : Separated ((t0 :: t1 :: rest).map (· + c))) (args : A)
    (solver : Solver (Except PyErr) K V A)
    (hsolver : solver = eulerSolver (Except PyErr) K V A ∨ solver = midpointSolver (Except PyErr) K V A ∨
      solver = rk4Solver (Except PyErr) K V A) :
    odeintFixed (pureField (fun t x => f (t - c) x)) x ((t0 :: t1 :: rest).map (· + c)) solver [] args =
      (odeintFixed (pureField f) x (t0 :: t1 :: rest) solver [] args).map (fun r => (r.1.map (· + c), r.2)) := by
  have key : ∀ φ φ' : V → K → K → V, SteppedBy solver f args φ →
      SteppedBy solver (fun t x => f (t - c) x) args φ' → (∀ x t dt, φ' x (t + c) dt = φ x t dt) →
      odeintFixed (pureField (fun t x => f (t - c) x)) x ((t0 :: t1 :: rest).map (· + c)) solver [] args =
      (odeintFixed (pureField f) x (t0 :: t1 :: rest) solver [] args).map (fun r => (r.1.map (· + c), r.2)) := by
    intro φ φ' h h' hφ
    have e1 := odeintFixed_forward (f := f) (solver := solver) (args := args) x rest [] hd
    have e2 := odeintFixed_forward (f := fun t x => f (t - c) x) (solver := solver) (args := args) x
      (rest.map (· + c)) [] (add_le_add_left hd c)
    rw [fixedOdeint_default _ (pure ()) φ h.tick x _ (by simp) hsep, tickN_pure] at e1
    rw [List.map_cons, List.map_cons] at hsep'
    rw [fixedOdeint_default _ (pure ()) φ' h'.tick x _ (by simp) hsep', tickN_pure] at e2
    have e3 := gridStates_shift φ φ' c hφ (t0 :: t1 :: rest) x
    rw [List.map_cons, List.map_cons] at e3 ⊢
    rw [e1, e2, e3]
    rfl
  have ha : ∀ t a : K, t + c + a - c = t + a := fun t a => by ring
  rcases hsolver with rfl | rfl | rfl
  · exact key _ _ (euler_steppedBy f args) (euler_steppedBy _ args) (fun x t dt => by simp)
  · exact key _ _ (midpoint_steppedBy f args) (midpoint_steppedBy _ args) (fun x t dt => by
      simp only [ha, add_sub_cancel_right])
  · refine key _ _ (rk4_steppedBy f args) (rk4_steppedBy _ args) (fun x t dt => ?_)
    simp only [rk4Update, rk4Step, firstStage, pureField, ha, add_sub_cancel_right]

/-- Non-vacuity of `C92_fixed`. -/
example : Separated ([0, 1, 3] : List ℚ) ∧ Separated (([0, 1, 3] : List ℚ).map (· + 5)) := by
  constructor <;> rw [← assert_iff_separated] <;> decide +kernel

/-! #### Refutation on decreasing grids -/

open Classical in
/-- A field that is switched off up to time `c`. -/
noncomputable def switchField (c : ℝ) : ℝ → (Fin 1 → ℝ) → (Fin 1 → ℝ) :=
  fun t _ => if 0 < t - c then fun _ => 1 / 10 ^ 12 else fun _ => 0

theorem switchField_initStep (c dt : ℝ) (hc : c = 0 ∧ dt = 1 / 10 ^ 4 ∨ c = 1 ∧ dt = 1 / 10 ^ 6) :
    initStep (m := Except PyErr) (pureField (switchField c)) (fun _ => 0) (fun _ => 0) (-c) 5
      (1 / 1000) (1 / 1000) = .ok dt := by
  have hn : ∀ a : ℝ, hairerNorm (fun _ : Fin 1 => a) = |a| := by
    intro a
    simp [hairerNorm, hairerNormOn, Real.sqrt_sq_eq_abs]
  simp only [initStep, pureField, bind, Except.bind, pure, Except.pure, zero_div, hn, abs_zero]
  have ht : initTrial 0 0 = 1 / 10 ^ 6 := by
    unfold initTrial
    rw [if_pos (Or.inl (by norm_num))]
  rw [ht]
  congr 1
  rcases hc with ⟨rfl, rfl⟩ | ⟨rfl, rfl⟩
  · have e : (fun i : Fin 1 => (switchField 0 (-0 + 1 / 10 ^ 6) (fun i => 0 + 1 / 10 ^ 6 * 0) i - 0) /
        (1 / 1000 + 0 * (1 / 1000))) = fun _ => 1 / 10 ^ 9 := by
      funext i
      simp only [switchField]
      rw [if_pos (by norm_num)]
      norm_num
    rw [e, hn]
    unfold initSecond
    rw [if_neg (by norm_num)]
    have h1 : (1 : ℝ) ≤ 1 / 100 / max 0 (|1 / 10 ^ 9| / (1 / 10 ^ 6)) := by norm_num
    have h2 := Real.one_le_rpow h1 (z := 1 / ((5 : ℕ) + 1 : ℝ)) (by positivity)
    rw [min_eq_left (le_trans (by norm_num) h2)]
    norm_num
  · have e : (fun i : Fin 1 => (switchField 1 (-1 + 1 / 10 ^ 6) (fun i => 0 + 1 / 10 ^ 6 * 0) i - 0) /
        (1 / 1000 + 0 * (1 / 1000))) = fun _ => 0 := by
      funext i
      simp only [switchField]
      rw [if_neg (by norm_num)]
      norm_num
    rw [e, hn]
    unfold initSecond
    rw [if_pos (by norm_num)]
    norm_num

/-- A step of `dopri5` over a window on which the field vanishes. -/
theorem dopri5_zero_window {ι : Type} [Fintype ι] (G : ℝ → (ι → ℝ) → (ι → ℝ)) (x : ι → ℝ) (t dt : ℝ) (hdt : 0 ≤ dt)
    (hG : ∀ s y, t ≤ s → G s y = 0) :
    dopri5Step (m := Except PyErr) (pureField G) x t dt (some 0) () = .ok (.four 0 x 0 (List.replicate 7 0)) := by
  rw [← C24_window_dopri5 G x t dt hdt]
  have e : windowField t (t + dt) G = windowField t (t + dt) (fun _ _ => 0) := by
    funext s y
    unfold windowField
    split_ifs with h
    · rw [hG s y h.1]
    · rfl
  rw [e, C24_window_dopri5 _ x t dt hdt]
  simp [dopri5Step, rk7Step, firstStage, pureField, bind, Except.bind, pure, Except.pure, List.replicate]

theorem switchField_run (c dt : ℝ) (hc : c = 0 ∧ dt = 1 / 10 ^ 4 ∨ c = 1 ∧ dt = 1 / 10 ^ 6) :
    ∃ r, odeint 2 (pureField (switchField c)) (fun _ => 0) [c, c - 1 / 10 ^ 4]
      (libSolver false (Fin 1) Unit) (1 / 1000) (1 / 1000) false false [] () Finset.univ = .ok r ∧
      (r = none ↔ dt < 1 / 10 ^ 4) := by
  have hs := dopri5_fsalSolver (ι := Fin 1) ()
  let G : ℝ → (Fin 1 → ℝ) → (Fin 1 → ℝ) := fun t x => -switchField c (-t) x
  have hG : ∀ s y, -c ≤ s → G s y = 0 := by
    intro s y h
    simp only [G, switchField]
    rw [if_neg (by linarith)]
    funext i
    simp
  have hdt' : 0 < dt := by rcases hc with ⟨_, rfl⟩ | ⟨_, rfl⟩ <;> norm_num
  have hle : dt ≤ 1 / 10 ^ 4 := by
    rcases hc with ⟨_, rfl⟩ | ⟨_, rfl⟩ <;> norm_num
  have hk : reverseField (pureField (m := Except PyErr) (switchField c)) (-c) (fun _ => 0) = .ok (fun _ => 0) := by
    have : reverseField (pureField (m := Except PyErr) (switchField c)) (-c) (fun _ => 0) = .ok (G (-c) (fun _ => 0)) :=
      rfl
    rw [this, hG _ _ le_rfl]
    rfl
  have e : odeint 2 (pureField (switchField c)) (fun _ => 0) [c, c - 1 / 10 ^ 4]
      (libSolver false (Fin 1) Unit) (1 / 1000) (1 / 1000) false false [] () Finset.univ =
      adaptiveOdeint (odeintCfg (pureField G) (dopri5Solver (Except PyErr) ℝ (Fin 1 → ℝ) Unit) () (1 / 1000) (1 / 1000)
        Finset.univ none false) 2 (fun _ => 0) (fun _ => 0) dt [-c, -(c - 1 / 10 ^ 4)] := by
    have h2 : (libSolver false (Fin 1) Unit).order = 5 := rfl
    have h3 : (libSolver false (Fin 1) Unit).adaptive = true := rfl
    have h4 : c - 1 / 10 ^ 4 < c := by norm_num
    simp only [odeint, odeintDirection, getItem, List.getElem?_cons_succ, List.map_cons,
      List.getElem?_cons_zero, pure_bind, if_pos h4, h3, if_true, hk, h2]
    simp only [bind, Except.bind, switchField_initStep c dt hc]
    rfl
  have hinc : ([-c, -(c - 1 / 10 ^ 4)] : List ℝ).Pairwise (· < ·) := by norm_num
  have hT : ([-(c - 1 / 10 ^ 4)] : List ℝ).getLast? = some (-(c - 1 / 10 ^ 4)) := rfl
  rw [e, adaptiveOdeint_eq_loop _ _ _ _ _ _ _ _ _ hT]
  obtain ⟨out, ho1, ho2, ho3, had⟩ := hs.out G (1 / 1000) (1 / 1000) Finset.univ none false
  have hinv := adaptiveInit_inv (fun _ => 0) (fun _ : Fin 1 => (0 : ℝ)) hdt' hinc hT
  have ht0 : (adaptiveInit (fun _ => 0) (fun _ : Fin 1 => (0 : ℝ)) dt (-c)).t < -(c - 1 / 10 ^ 4) := by
    show -c < _
    norm_num
  obtain ⟨d, s', h1, h2, h3, dt'', _, _, h4, _⟩ := adaptiveIter_spec ho1 had
    (List.pairwise_cons.1 hinc).2 hT hinv ht0
  have hclamp : clampDt (-(c - 1 / 10 ^ 4)) (adaptiveInit (fun _ => 0) (fun _ : Fin 1 => (0 : ℝ)) dt (-c))
      = dt := by
    unfold clampDt
    rw [if_neg]
    · rfl
    · simp only [adaptiveInit, not_lt]; linarith
  have hd : d = dt := by
    rcases h4 with ⟨_, h⟩ | ⟨_, _, h, h'⟩
    · rw [h, hclamp]
    · rw [hclamp] at h
      simp only [adaptiveInit, List.mem_singleton] at h'
      linarith
  subst hd
  have herr : errorRatio Finset.univ (1 / 1000) (1 / 1000) (fun _ : Fin 1 => (0 : ℝ))
      (out (fun _ => 0) (-c) d (fun _ => 0)).2.1
      (out (fun _ => 0) (-c) d (fun _ => 0)).2.2.1 ≤ 1 := by
    have h0 := ho1 (fun _ => 0) (-c) d (fun _ => 0)
    have h0' := dopri5_zero_window G (fun _ => 0) (-c) d hdt'.le hG
    have h5 := h0.symm.trans h0'
    have h6 : (out (fun _ => 0) (-c) d (fun _ => 0)).2.2.1 = 0 := by
      have := Except.ok.inj h5
      injection this
    rw [h6]
    simp [errorRatio, hairerNormOn, errorScaled]
  obtain ⟨h5, -⟩ := h2.accepted herr
  have h5' : s'.t = -c + d := by rw [h5]; simp [adaptiveInit]
  rw [adaptiveLoop, if_pos ht0, h1]
  simp only [bind, Except.bind]
  by_cases hlt : d < 1 / 10 ^ 4
  · have ht' : s'.t < -(c - 1 / 10 ^ 4) := by rw [h5']; linarith
    obtain ⟨d', s'', g1, -⟩ := adaptiveIter_spec ho1 had (List.pairwise_cons.1 hinc).2 hT h3 ht'
    refine ⟨none, ?_, by simpa using hlt⟩
    rw [adaptiveLoop, if_pos ht', g1]
    rfl
  · refine ⟨some (s'.evalTimes, s'.sol), ?_, by simpa using hlt⟩
    rw [adaptiveLoop, if_neg (by rw [h5']; linarith)]
    rfl

/-- **C92 (refuted on decreasing grids).** On a decreasing grid the first step size is computed with the field taken at
the opposite times, so that it depends on the origin of time. Here a field that is zero on the whole interval of
integration is integrated over `[0, -1e-4]`, and its translate over `[1, 1 - 1e-4]`: after two tests of the loop
condition the first call has returned and the second has not. -/
theorem C92_backward_refuted :
    ∃ (f : ℝ → (Fin 1 → ℝ) → (Fin 1 → ℝ)) (r : List ℝ × List (Fin 1 → ℝ)), (∀ t ≤ 0, ∀ x, f t x = 0) ∧
      odeint 2 (pureField f) (fun _ => 0) [0, -(1 / 10 ^ 4)]
        (libSolver false (Fin 1) Unit) (1 / 1000) (1 / 1000) false false [] () Finset.univ = .ok (some r) ∧
      odeint 2 (pureField (fun t x => f (t - 1) x)) (fun _ => 0) ([0, -(1 / 10 ^ 4)].map (· + 1))
        (libSolver false (Fin 1) Unit) (1 / 1000) (1 / 1000) false false [] () Finset.univ = .ok none := by
  obtain ⟨r, hr, h⟩ := switchField_run 0 (1 / 10 ^ 4) (Or.inl ⟨rfl, rfl⟩)
  obtain ⟨r', hr', h'⟩ := switchField_run 1 (1 / 10 ^ 6) (Or.inr ⟨rfl, rfl⟩)
  have e : r' = none := h'.2 (by norm_num)
  subst e
  cases r with
  | none => exact absurd (h.1 rfl) (lt_irrefl _)
  | some r =>
    refine ⟨switchField 0, r, ?_, ?_, ?_⟩
    · intro t ht x
      simp only [switchField]
      rw [if_neg (by linarith)]
      rfl
    · rw [← hr]; norm_num
    · have e1 : (fun t x => switchField 0 (t - 1) x) = switchField 1 := by
        funext t x
        simp only [switchField, sub_zero]
      have e2 : ([0, -(1 / 10 ^ 4)].map (· + 1) : List ℝ) = [1, 1 - 1 / 10 ^ 4] := by
        norm_num
      rw [e1, e2, hr']

end translate

/-! ### C93: linear invariants -/

section invariants

/-- An invariant of all states and derivatives handled by the adaptive loop. -/
theorem adaptiveLoop_states {K V : Type} [Field K] [LinearOrder K] (cfg : AdaptiveCfg (Except PyErr) K V) (Q R : V → Prop)
    (hstep : ∀ x t dt k k' x' e st, Q x → R k → cfg.step x t dt k = .ok (.four k' x' e st) →
      R k' ∧ Q x' ∧ ∀ d, cfg.interp = some d → ∀ tq, Q (d t dt k k' x x' st tq))
    (tEval : List K) (T : K) (fuel : ℕ) : ∀ s s' : AState K V, adaptiveLoop cfg tEval T fuel s = .ok (some s') →
      Q s.x → R s.k1 → (∀ y ∈ s.sol, Q y) → ∀ y ∈ s'.sol, Q y := by
  have hckpts : ∀ (d : K → V), (∀ t, Q (d t)) → ∀ (tNew : K) (rest : List K) (n : ℕ) (et : List K) (sol : List V),
      (∀ y ∈ sol, Q y) → ∀ y ∈ (interpCkpts d tNew rest n et sol).2.2, Q y := by
    intro d hd tNew rest
    induction rest with
    | nil => intro n et sol h; exact h
    | cons te rest ih =>
      intro n et sol h
      rw [interpCkpts]
      split_ifs
      · refine ih _ _ _ ?_
        intro y hy
        rcases List.mem_append.1 hy with hy | hy
        · exact h y hy
        · rw [List.mem_singleton.1 hy]; exact hd te
      · exact h
  have hacc : ∀ (s s' : AState K V) (dt : K) (k' x' : V) (st : List V),
      acceptStep cfg tEval s dt k' x' st = .ok s' → R k' → Q x' →
      (∀ d, cfg.interp = some d → ∀ tq, Q (d s.t dt s.k1 k' s.x x' st tq)) → (∀ y ∈ s.sol, Q y) →
      Q s'.x ∧ R s'.k1 ∧ ∀ y ∈ s'.sol, Q y := by
    intro s s' dt k' x' st h hk hx hd hs
    have hi : ∀ y ∈ (interpPhase cfg tEval s dt k' x' st).2.2, Q y := by
      unfold interpPhase
      cases hc : cfg.interp with
      | none => exact hs
      | some d => exact hckpts _ (hd d hc) _ _ _ _ _ hs
    simp only [acceptStep, bind, Except.bind] at h
    split at h
    · cases h
    · have h := Except.ok.inj h
      subst h
      refine ⟨hx, hk, ?_⟩
      intro y hy
      dsimp only at hy
      split_ifs at hy
      · rcases List.mem_append.1 hy with hy | hy
        · exact hi y hy
        · rw [List.mem_singleton.1 hy]; exact hx
      · exact hi y hy
  induction fuel with
  | zero => intro s s' h; cases h
  | succ fuel ih =>
    intro s s' h hQ hR hs
    rw [adaptiveLoop] at h
    split_ifs at h with ht
    · simp only [bind, Except.bind] at h
      cases hit : adaptiveIter cfg tEval T s with
      | error e => rw [hit] at h; cases h
      | ok s1 =>
        rw [hit] at h
        refine ih s1 s' h ?_ ?_ ?_ <;>
        · simp only [adaptiveIter, bind, Except.bind] at hit
          generalize hdt : (checkpointDt cfg.interp.isSome tEval s (clampDt T s)).1 = dt at hit
          cases hst : cfg.step s.x s.t dt s.k1 with
          | error e => rw [hst] at hit; cases hit
          | ok o =>
            rw [hst] at hit
            cases o with
            | three => cases hit
            | four k' x' e st =>
              obtain ⟨a1, a2, a3⟩ := hstep _ _ _ _ _ _ _ _ hQ hR hst
              simp only [StepOut.unpack4, pure, Except.pure] at hit
              by_cases her : cfg.errRatio s.x x' e ≤ 1
              · rw [if_pos her] at hit
                cases hac : acceptStep cfg tEval s dt k' x' st with
                | error e => rw [hac] at hit; cases hit
                | ok s2 =>
                  rw [hac] at hit
                  have := hacc s s2 dt k' x' st hac a1 a2 a3 hs
                  have hit := Except.ok.inj hit
                  subst hit
                  first | exact this.1 | exact this.2.1 | exact this.2.2
              · rw [if_neg her] at hit
                have hit := Except.ok.inj hit
                subst hit
                first | exact hQ | exact hR | exact hs
    · have h := Option.some.inj (Except.ok.inj h)
      subst h
      exact hs

theorem adaptiveOdeint_states {K V : Type} [Field K] [LinearOrder K] (cfg : AdaptiveCfg (Except PyErr) K V)
    (Q R : V → Prop)
    (hstep : ∀ x t dt k k' x' e st, Q x → R k → cfg.step x t dt k = .ok (.four k' x' e st) →
      R k' ∧ Q x' ∧ ∀ d, cfg.interp = some d → ∀ tq, Q (d t dt k k' x x' st tq))
    (fuel : ℕ) (k x : V) (dt : K) (tSpan : List K) (hx : Q x) (hk : R k) (ts : List K) (xs : List V)
    (h : adaptiveOdeint cfg fuel k x dt tSpan = .ok (some (ts, xs))) : ∀ y ∈ xs, Q y := by
  simp only [adaptiveOdeint, bind, Except.bind] at h
  cases h0 : (getItem tSpan 0 : Except PyErr K) with
  | error e => rw [h0] at h; cases h
  | ok t0 =>
    rw [h0] at h
    cases hT : (getItem tSpan (tSpan.length - 1) : Except PyErr K) with
    | error e => rw [hT] at h; cases h
    | ok T =>
      rw [hT] at h
      dsimp only at h
      cases hl : adaptiveLoop cfg (tSpan.drop 1) T fuel (adaptiveInit k x dt t0) with
      | error e => rw [hl] at h; cases h
      | ok r =>
        rw [hl] at h
        cases r with
        | none => cases h
        | some s =>
          have h := Option.some.inj (Except.ok.inj h)
          have := adaptiveLoop_states cfg Q R hstep _ _ _ _ _ hl hx hk (by simpa [adaptiveInit] using hx)
          have e : xs = s.sol := (congrArg Prod.snd h).symm
          rw [e]
          exact this

variable {ι A : Type} [Fintype ι]

theorem libSolver_kills (tsit : Bool) {W : Type} [AddCommGroup W] [Module ℝ W] (ℓ : (ι → ℝ) →ₗ[ℝ] W)
    (f : ℝ → (ι → ℝ) → (ι → ℝ)) (h : ∀ t x, ℓ (f t x) = 0) (x : ι → ℝ) (t dt : ℝ) (k k' x' e : ι → ℝ)
    (st : List (ι → ℝ)) (args : A) (hk : ℓ k = 0)
    (hs : (libSolver tsit ι A).step (pureField f) x t dt (some k) args = .ok (.four k' x' e st)) :
    ℓ k' = 0 ∧ ℓ x' = ℓ x ∧ st.map ℓ = List.replicate 7 0 := by
  have h8 := C08_adaptive_step_equivariant ℓ f (fun _ _ => 0) h x t dt (some k) args
  have z : ∀ tab : Tableau ℝ, rk7Step (m := Id) tab (pureField (fun _ _ => (0 : W))) (ℓ x) t dt (some (ℓ k)) args =
      .four 0 (ℓ x) 0 (List.replicate 7 0) := by
    intro tab
    rw [hk]
    simp [rk7Step, firstStage, pureField, List.replicate]
    rfl
  cases tsit with
  | true =>
    have e1 : tsit5Step (m := Id) (pureField f) x t dt (some k) args = .four k' x' e st := Except.ok.inj hs
    have e2 := h8.2
    rw [e1] at e2
    have e3 := e2.trans (z _)
    injection e3 with a b c d
    exact ⟨a, b, d⟩
  | false =>
    have e1 : dopri5Step (m := Id) (pureField f) x t dt (some k) args = .four k' x' e st := Except.ok.inj hs
    have e2 := h8.1
    rw [e1] at e2
    have e3 := e2.trans (z _)
    injection e3 with a b c d
    exact ⟨a, b, d⟩

theorem dense_const {W : Type} [AddCommGroup W] [Module ℝ W] (b : List ℝ) (t dt : ℝ) (w : W) (n : ℕ) (tq : ℝ) :
    fourthOrderDense b t dt 0 0 w w (List.replicate n 0) tq = w := by
  have hm : interpMid b w dt (List.replicate n (0 : W)) = w := by
    have : ∀ i, (List.replicate n (0 : W)).getD i 0 = 0 := by
      intro i
      rw [List.getD_eq_getElem?_getD, List.getElem?_replicate]
      split_ifs <;> rfl
    simp only [interpMid, this, smul_zero, List.map_const', List.sum_replicate, add_zero]
  simp only [fourthOrderDense, hm, interp_expand]
  module

/-- **C93.** Linear invariants are conserved exactly by the adaptive solvers: if a linear map `ℓ` vanishes on all values
of the field, then every state returned by `odeint` — at the requested times, at intermediate times, interpolated or
not, on increasing or decreasing grids, for every tolerance and seminorm — has the value of `ℓ` at the initial state. -/
theorem C93_adaptive (tsit : Bool) {W : Type} [AddCommGroup W] [Module ℝ W] (ℓ : (ι → ℝ) →ₗ[ℝ] W)
    (f : ℝ → (ι → ℝ) → (ι → ℝ)) (h : ∀ t x, ℓ (f t x) = 0) (x : ι → ℝ) (tSpan : List ℝ) (atol rtol : ℝ)
    (ui rae : Bool) (saveAt : List ℝ) (args : A) (sel : Finset ι) (fuel : ℕ) (ts : List ℝ) (xs : List (ι → ℝ))
    (hr : odeint fuel (pureField f) x tSpan (libSolver tsit ι A) atol rtol ui rae saveAt args sel =
      .ok (some (ts, xs))) : ∀ y ∈ xs, ℓ y = ℓ x := by
  have hι : (libSolver tsit ι A).adaptive = true := by cases tsit <;> rfl
  have key : ∀ (F : ℝ → (ι → ℝ) → (ι → ℝ)), (∀ t x, ℓ (F t x) = 0) → ∀ (k : ι → ℝ) (dt : ℝ) (grid : List ℝ),
      ℓ k = 0 → adaptiveOdeint (odeintCfg (pureField F) (libSolver tsit ι A) args atol rtol sel
        (odeintInterp (libSolver tsit ι A) ui) rae) fuel k x dt grid = .ok (some (ts, xs)) → ∀ y ∈ xs, ℓ y = ℓ x := by
    intro F hF k dt grid hk hg
    refine adaptiveOdeint_states _ (fun y => ℓ y = ℓ x) (fun k => ℓ k = 0) ?_ fuel k x dt grid rfl hk ts xs hg
    intro x1 t dt k k' x' e st hx1 hk hs
    obtain ⟨a, b, c⟩ := libSolver_kills tsit ℓ F hF x1 t dt k k' x' e st args hk hs
    refine ⟨a, b.trans hx1, ?_⟩
    intro d hd tq
    have hd' : d = fourthOrderDense (construct4th ℝ) := by
      have hd : odeintInterp (libSolver tsit ι A) ui = some d := hd
      cases tsit <;> cases ui <;> first | (cases hd; done) | (exact (Option.some.inj hd).symm)
    rw [hd', ← dense_map, hk, a, b, hx1, c, dense_const]
  match tSpan, hr with
  | [], hr => cases hr
  | [_], hr => cases hr
  | t0 :: t1 :: rest, hr =>
    rcases le_or_gt t0 t1 with hd | hd
    · obtain ⟨d1, -, -, e1⟩ := odeint_forward fuel f x rest (libSolver tsit ι A) hι atol rtol ui rae
        saveAt args sel hd
      rw [e1] at hr
      exact key f h _ _ _ (h _ _) hr
    · obtain ⟨d1, -, e1⟩ := odeint_backward fuel f x rest (libSolver tsit ι A) hι atol rtol ui rae
        saveAt args sel hd
      rw [e1] at hr
      exact key (fun t x => -f (-t) x) (fun t x => by rw [map_neg, h, neg_zero]) _ _ _
        (by rw [map_neg, h, neg_zero]) hr

/-- An invariant of all states handled by the fixed-step loop. -/
theorem fixedLoop_states {K V : Type} [Field K] (isclose : K → K → Bool) (step : V → K → K → Except PyErr (StepOut V))
    (Q : V → Prop) (hstep : ∀ x t dt k x' e, Q x → step x t dt = .ok (.three k x' e) → Q x')
    (hthree : ∀ x t dt k x' e st, step x t dt ≠ .ok (.four k x' e st))
    (tSpan saveAt : List K) (fuel : ℕ) : ∀ (n : ℕ) (t dt : K) (x : V) (sol xs : List V),
      fixedLoop isclose step tSpan saveAt fuel n t dt x sol = .ok xs → Q x → (∀ y ∈ sol, Q y) → ∀ y ∈ xs, Q y := by
  induction fuel with
  | zero =>
    intro n t dt x sol xs h hx hs
    rw [← Except.ok.inj h]
    exact hs
  | succ fuel ih =>
    intro n t dt x sol xs h hx hs
    rw [fixedLoop] at h
    by_cases hn : n ≤ tSpan.length - 1
    · rw [if_pos hn] at h
      cases hst : step x t dt with
      | error e => rw [hst] at h; cases h
      | ok o =>
        rw [hst] at h
        cases o with
        | four k x' e st => exact absurd hst (hthree _ _ _ _ _ _ _)
        | three k x' e =>
          have hx' := hstep _ _ _ _ _ _ hx hst
          simp only [bind, Except.bind, StepOut.unpack3, pure, Except.pure] at h
          have hs' : ∀ y ∈ (if closeCount isclose (t + dt) saveAt ≠ 0 then sol ++ [x'] else sol), Q y := by
            intro y hy
            split_ifs at hy
            · rcases List.mem_append.1 hy with hy | hy
              · exact hs y hy
              · rw [List.mem_singleton.1 hy]; exact hx'
            · exact hs y hy
          split at h
          · split at h
            · cases h
            · exact ih _ _ _ _ _ _ h hx' hs'
          · exact ih _ _ _ _ _ _ h hx' hs'
    · rw [if_neg hn] at h
      rw [← Except.ok.inj h]
      exact hs

theorem fixedOdeint_states {K V : Type} [Field K] (isclose : K → K → Bool)
    (step : V → K → K → Except PyErr (StepOut V))
    (Q : V → Prop) (hstep : ∀ x t dt k x' e, Q x → step x t dt = .ok (.three k x' e) → Q x')
    (hthree : ∀ x t dt k x' e st, step x t dt ≠ .ok (.four k x' e st))
    (x : V) (hx : Q x) (tSpan saveAt ts : List K) (xs : List V)
    (h : fixedOdeint isclose step x tSpan saveAt = .ok (ts, xs)) : ∀ y ∈ xs, Q y := by
  simp only [fixedOdeint] at h
  generalize hsv : (if saveAt.length = 0 then tSpan else saveAt) = sv at h
  split_ifs at h with hall
  · simp only [bind, Except.bind] at h
    cases h0 : (getItem tSpan 0 : Except PyErr K) with
    | error e => rw [h0] at h; cases h
    | ok t0 =>
      rw [h0] at h
      cases h1 : (getItem tSpan 1 : Except PyErr K) with
      | error e => rw [h1] at h; cases h
      | ok t1 =>
        rw [h1] at h
        dsimp only at h
        cases hl : fixedLoop isclose step tSpan sv tSpan.length 1 t0 (t1 - t0) x
            (if closeCount isclose t0 sv ≠ 0 then [x] else []) with
        | error e => rw [hl] at h; cases h
        | ok r =>
          rw [hl] at h
          dsimp only at h
          have hr := fixedLoop_states isclose step Q hstep hthree _ _ _ _ _ _ _ _ _ hl hx (by
            intro y hy
            split_ifs at hy
            · rw [List.mem_singleton.1 hy]; exact hx
            · cases hy)
          split at h
          · cases h
          · have := Except.ok.inj h
            have e : r = xs := congrArg Prod.snd this
            rw [← e]
            exact hr

/-- **C93**, fixed-step solvers: the same for `euler`, `midpoint` and `rk4`, on every grid and for every `save_at`. -/
theorem C93_fixed {K V W : Type} [Field K] [LinearOrder K] [IsStrictOrderedRing K] [AddCommGroup V] [Module K V]
    [AddCommGroup W] [Module K W] (ℓ : V →ₗ[K] W)
    (f : K → V → V) (h : ∀ t x, ℓ (f t x) = 0) (x : V) (tSpan saveAt : List K) (args : A)
    (solver : Solver (Except PyErr) K V A)
    (hsolver : solver = eulerSolver (Except PyErr) K V A ∨ solver = midpointSolver (Except PyErr) K V A ∨
      solver = rk4Solver (Except PyErr) K V A) (ts : List K) (xs : List V)
    (hr : odeintFixed (pureField f) x tSpan solver saveAt args = .ok (ts, xs)) : ∀ y ∈ xs, ℓ y = ℓ x := by
  have key : ∀ F : K → V → V, (∀ t x, ℓ (F t x) = 0) → ∀ grid : List K,
      fixedOdeint torchIsclose (fun x t dt => solver.step (pureField F) x t dt none args) x grid saveAt =
        .ok (ts, xs) → ∀ y ∈ xs, ℓ y = ℓ x := by
    intro F hF grid hg
    have hst : ∃ φ : V → K → K → V, SteppedBy solver F args φ ∧ ∀ x t dt, ℓ (φ x t dt) = ℓ x := by
      rcases hsolver with rfl | rfl | rfl
      · exact ⟨_, euler_steppedBy F args, fun x t dt => by simp [hF]⟩
      · exact ⟨_, midpoint_steppedBy F args, fun x t dt => by simp [hF]⟩
      · refine ⟨_, rk4_steppedBy F args, fun x t dt => ?_⟩
        change ℓ (x + dt • (_ • F _ _ + _ • F _ _ + _ • F _ _ + _ • F _ _)) = ℓ x
        simp only [map_add, map_smul, hF, smul_zero, add_zero]
    obtain ⟨φ, h1, h2⟩ := hst
    refine fixedOdeint_states _ _ (fun y => ℓ y = ℓ x) ?_ ?_ x rfl grid saveAt ts xs hg
    · intro x1 t dt k x' e hx1 hs
      obtain ⟨k1, e1, h3⟩ := h1 x1 t dt
      have := Except.ok.inj (h3.symm.trans hs)
      injection this with a b c
      rw [← b, h2, hx1]
    · intro x1 t dt k x' e st hs
      obtain ⟨k1, e1, h3⟩ := h1 x1 t dt
      cases h3.symm.trans hs
  match tSpan, hr with
  | [], hr => cases hr
  | [_], hr => cases hr
  | t0 :: t1 :: rest, hr =>
    rcases le_or_gt t0 t1 with hd | hd
    · rw [odeintFixed_forward _ _ _ hd] at hr
      exact key f h _ hr
    · rw [odeintFixed_backward _ _ _ hd] at hr
      exact key (fun t x => -f (-t) x) (fun t x => by rw [map_neg, h, neg_zero]) _ hr

/-- Non-vacuity of C93: a chemical reaction `a + b ⇄ c` conserves `a + c`. -/
example : ∃ ℓ : (Fin 3 → ℝ) →ₗ[ℝ] ℝ, (∀ x, ℓ x = x 0 + x 2) ∧ ∀ (t : ℝ) (x : Fin 3 → ℝ),
    ℓ ![-((1 + t ^ 2) * x 0 * x 1 - x 2), -((1 + t ^ 2) * x 0 * x 1 - x 2), (1 + t ^ 2) * x 0 * x 1 - x 2] = 0 := by
  refine ⟨{ toFun := fun x => x 0 + x 2, map_add' := ?_, map_smul' := ?_ }, fun _ => rfl, ?_⟩
  · intro x y; simp only [Pi.add_apply]; ring
  · intro c x; simp only [Pi.smul_apply, smul_eq_mul, RingHom.id_apply]; ring
  · intro t x
    simp

/-- C93 on a run of `euler`. -/
example : odeintFixed (K := ℚ) (V := ℚ × ℚ) (A := Unit) (pureField (fun t y => (y.1 * y.2 - t, t - y.1 * y.2)))
    (1, 2) [0, 1, 3] (eulerSolver (Except PyErr) ℚ (ℚ × ℚ) Unit) [] () = .ok ([0, 1, 3], [(1, 2), (3, 0), (1, 2)]) := by
  decide +kernel

end invariants

end Torchdyn
