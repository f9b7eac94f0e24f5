import Verif.Props.AdaptiveMore

/-!
Property C32: checkpoints handled by interpolation do not influence the integration.
-/

set_option linter.unusedSectionVars false
set_option linter.unusedSimpArgs false

namespace Torchdyn

open Spec

variable {ι A : Type} [Fintype ι] {solver : Solver (Except PyErr) ℝ (ι → ℝ) A} {args : A}

/-- Two runs of the loop, on the checkpoints `g₁` and `g₂`, are at the same point. -/
structure Lockstep (all₂ : Bool) (g₁ : List ℝ) (s₁ s₂ : AState ℝ (ι → ℝ)) : Prop where
  t : s₁.t = s₂.t
  dt : s₁.dt = s₂.dt
  x : s₁.x = s₂.x
  k1 : s₁.k1 = s₂.k1
  len₁ : s₁.sol.length = s₁.evalTimes.length
  len₂ : s₂.sol.length = s₂.evalTimes.length
  le₁ : ∀ p ∈ outs s₁, p.1 ≤ s₁.t
  le₂ : ∀ p ∈ outs s₂, p.1 ≤ s₂.t
  agree : ∀ p ∈ outs s₁, ∀ q ∈ outs s₂, p.1 = q.1 → p.2 = q.2
  sub : all₂ = true → ∀ p ∈ outs s₁, p.1 ∈ g₁ ∨ p ∈ outs s₂

/-- The outputs appended by an accepted step. -/
theorem outs_accepted {f : ℝ → (ι → ℝ) → (ι → ℝ)} {atol rtol : ℝ} {sel : Finset ι} {rae : Bool}
    {dense : ℝ → ℝ → (ι → ℝ) → (ι → ℝ) → (ι → ℝ) → (ι → ℝ) → List (ι → ℝ) → ℝ → (ι → ℝ)}
    {out : (ι → ℝ) → ℝ → ℝ → (ι → ℝ) → (ι → ℝ) × (ι → ℝ) × (ι → ℝ) × List (ι → ℝ)}
    {tEval : List ℝ} {t0 T : ℝ} {s s' : AState ℝ (ι → ℝ)} {dt : ℝ}
    (hsort : tEval.Pairwise (· < ·)) (hinv : AInv tEval t0 T s)
    (hlen : s.sol.length = s.evalTimes.length)
    (hit : IterSpec (odeintCfg (pureField f) solver args atol rtol sel (some dense) rae) out tEval T s
      s' dt) (hacc : errorRatio sel atol rtol s.x (out s.x s.t dt s.k1).2.1
        (out s.x s.t dt s.k1).2.2.1 ≤ 1) :
    s'.t = s.t + dt ∧ s'.x = (out s.x s.t dt s.k1).2.1 ∧ s'.k1 = (out s.x s.t dt s.k1).1 ∧
    s'.sol.length = s'.evalTimes.length ∧
    ∃ new, outs s' = outs s ++ new ∧ (∀ p ∈ new, s.t < p.1 ∧ p.1 ≤ s.t + dt ∧
      (p.1 < s.t + dt → p.1 ∈ tEval ∧ p.2 = dense s.t dt s.k1 (out s.x s.t dt s.k1).1 s.x
        (out s.x s.t dt s.k1).2.1 (out s.x s.t dt s.k1).2.2.2 p.1) ∧
      (p.1 = s.t + dt → p.2 = (out s.x s.t dt s.k1).2.1)) ∧
      (rae = true → (s.t + dt, (out s.x s.t dt s.k1).2.1) ∈ new) := by
  obtain ⟨ht, hx, hk, _, het, mids, hm1, hm2, hsol⟩ := hit.accepted hacc
  have e : (odeintCfg (pureField f) solver args atol rtol sel (some dense) rae).returnAllEval = rae := rfl
  rw [e] at het hsol
  have hdt := hit.dt_pos
  refine ⟨ht, hx, hk, ?_, (passed tEval s.ckpt (s.t + dt)).zip mids ++
    (if s.t + dt ∈ tEval ∨ rae = true then [(s.t + dt, (out s.x s.t dt s.k1).2.1)] else []), ?_, ?_, ?_⟩
  · rw [hsol, het]
    simp only [List.length_append, hlen, hm1]
    congr 1
    split_ifs <;> rfl
  · rw [outs, het, hsol, List.zip_append (by simp [hm1, hlen]), List.zip_append hlen.symm, outs,
      List.append_assoc]
    congr 2
    split_ifs <;> rfl
  · intro p hp
    rcases List.mem_append.1 hp with hp | hp
    · have hpm := (List.of_mem_zip hp).1
      have hpd := (List.takeWhile_prefix _).subset hpm
      have hlt := (takeWhile_lt_append_dropWhile _ _
        (hsort.sublist (List.drop_sublist s.ckpt _))).1 p.1 hpm
      refine ⟨hinv.future _ hpd, hlt.le, fun _ => ⟨List.mem_of_mem_drop hpd, ?_⟩, fun h =>
        absurd hlt (h ▸ lt_irrefl _)⟩
      have hm := hm2 dense rfl
      rw [hm, List.zip_map_right] at hp
      obtain ⟨q, hq, rfl⟩ := List.mem_map.1 hp
      have hqq : q.1 = q.2 := by
        obtain ⟨i, hi, he⟩ := List.getElem_of_mem hq
        rw [List.getElem_zip] at he
        rw [← he]
      simp only [Prod.map_snd, Prod.map_fst, id, hqq]
    · split_ifs at hp
      · rw [List.mem_singleton] at hp
        subst hp
        exact ⟨by simp only; linarith, le_refl _, fun h => absurd h (lt_irrefl _), fun _ => rfl⟩
      · simp at hp
  · intro hr
    rw [if_pos (Or.inr hr)]
    exact List.mem_append_right _ (by simp)

theorem lockstep_iter {f : ℝ → (ι → ℝ) → (ι → ℝ)} {atol rtol : ℝ} {sel : Finset ι} {r₁ r₂ : Bool}
    {dense : ℝ → ℝ → (ι → ℝ) → (ι → ℝ) → (ι → ℝ) → (ι → ℝ) → List (ι → ℝ) → ℝ → (ι → ℝ)}
    (hs : FsalSolver solver args) {g₁ g₂ : List ℝ} {t0 T : ℝ} (hg₁ : g₁.Pairwise (· < ·))
    (hg₂ : g₂.Pairwise (· < ·)) (hT₁ : g₁.getLast? = some T) (hT₂ : g₂.getLast? = some T)
    {s₁ s₂ : AState ℝ (ι → ℝ)} (hi₁ : AInv g₁ t0 T s₁) (hi₂ : AInv g₂ t0 T s₂)
    (h : Lockstep r₂ g₁ s₁ s₂) (ht : s₁.t < T) :
    ∃ s₁' s₂', adaptiveIter (odeintCfg (pureField f) solver args atol rtol sel (some dense) r₁) g₁ T s₁
        = .ok s₁' ∧
      adaptiveIter (odeintCfg (pureField f) solver args atol rtol sel (some dense) r₂) g₂ T s₂
        = .ok s₂' ∧ AInv g₁ t0 T s₁' ∧ AInv g₂ t0 T s₂' ∧ Lockstep r₂ g₁ s₁' s₂' := by
  obtain ⟨out, ho1, ho2, ho3, had⟩ := hs.out f atol rtol sel (some dense) r₁
  have ho1' : FourStep (odeintCfg (pureField f) solver args atol rtol sel (some dense) r₂) out :=
    fun x t dt k1 => ho1 x t dt k1
  obtain ⟨d₁, s₁', e₁, hit₁, hi₁', dt₁, _, hdt₁, hc₁, hd₁⟩ :=
    adaptiveIter_spec ho1 had hg₁ hT₁ hi₁ ht
  obtain ⟨d₂, s₂', e₂, hit₂, hi₂', dt₂, _, hdt₂, hc₂, hd₂⟩ :=
    adaptiveIter_spec ho1' had hg₂ hT₂ hi₂ (h.t ▸ ht)
  have hcl : clampDt T s₁ = clampDt T s₂ := by simp only [clampDt, h.t, h.dt]
  have hd : d₁ = d₂ := by rw [hd₁ rfl, hd₂ rfl, hcl]
  subst hd
  have hdd₁ : dt₁ = d₁ := by
    rcases hc₁ with hc | hc
    · exact hc.1
    · exact absurd hc.1 (by simp [odeintCfg])
  have hdd₂ : dt₂ = d₁ := by
    rcases hc₂ with hc | hc
    · exact hc.1
    · exact absurd hc.1 (by simp [odeintCfg])
  rw [hdd₁] at hdt₁
  rw [hdd₂] at hdt₂
  refine ⟨s₁', s₂', e₁, e₂, hi₁', hi₂', ?_⟩
  have hdt' : s₁'.dt = s₂'.dt := by
    rw [hdt₁, hdt₂]
    simp only [odeintCfg, h.t, h.x, h.k1]
  by_cases hacc : errorRatio sel atol rtol s₁.x (out s₁.x s₁.t d₁ s₁.k1).2.1
      (out s₁.x s₁.t d₁ s₁.k1).2.2.1 ≤ 1
  · have hacc₂ : errorRatio sel atol rtol s₂.x (out s₂.x s₂.t d₁ s₂.k1).2.1
      (out s₂.x s₂.t d₁ s₂.k1).2.2.1 ≤ 1 := by rw [← h.x, ← h.t, ← h.k1]; exact hacc
    obtain ⟨a1, a2, a3, a4, n₁, a5, a6, a7⟩ := outs_accepted hg₁ hi₁ h.len₁ hit₁ hacc
    obtain ⟨b1, b2, b3, b4, n₂, b5, b6, b7⟩ := outs_accepted hg₂ hi₂ h.len₂ hit₂ hacc₂
    rw [← h.x, ← h.t, ← h.k1] at b2 b3 b6 b7
    rw [← h.t] at b1
    have hpos := hit₁.dt_pos
    refine ⟨by rw [a1, b1], hdt', by rw [a2, b2], by rw [a3, b3], a4, b4, ?_, ?_, ?_, ?_⟩
    · intro p hp
      rw [a5] at hp
      rw [a1]
      rcases List.mem_append.1 hp with hp | hp
      · have := h.le₁ p hp; linarith
      · exact (a6 p hp).2.1
    · intro p hp
      rw [b5] at hp
      rw [b1]
      rcases List.mem_append.1 hp with hp | hp
      · have := h.le₂ p hp; rw [← h.t] at this; linarith
      · exact (b6 p hp).2.1
    · intro p hp q hq hpq
      rw [a5] at hp
      rw [b5] at hq
      rcases List.mem_append.1 hp with hp | hp <;> rcases List.mem_append.1 hq with hq | hq
      · exact h.agree p hp q hq hpq
      · have g1 := h.le₁ p hp
        have g2 := (b6 q hq).1
        linarith
      · have g1 := h.le₂ q hq
        have g2 := (a6 p hp).1
        rw [← h.t] at g1
        linarith
      · obtain ⟨_, g1, g2, g3⟩ := a6 p hp
        obtain ⟨_, k1, k2, k3⟩ := b6 q hq
        rcases g1.lt_or_eq with g1 | g1
        · rw [(g2 g1).2, (k2 (hpq ▸ g1)).2, hpq]
        · rw [g3 g1, k3 (hpq ▸ g1)]
    · intro hr p hp
      rw [a5] at hp
      rw [b5]
      rcases List.mem_append.1 hp with hp | hp
      · exact (h.sub hr p hp).imp id (fun hp => List.mem_append_left _ hp)
      · obtain ⟨_, g1, g2, g3⟩ := a6 p hp
        rcases g1.lt_or_eq with g1 | g1
        · exact Or.inl (g2 g1).1
        · right
          refine List.mem_append_right _ ?_
          have : p = (s₁.t + d₁, (out s₁.x s₁.t d₁ s₁.k1).2.1) := Prod.ext g1 (g3 g1)
          rw [this]
          exact b7 hr
  · have hacc₂ : ¬ errorRatio sel atol rtol s₂.x (out s₂.x s₂.t d₁ s₂.k1).2.1
      (out s₂.x s₂.t d₁ s₂.k1).2.2.1 ≤ 1 := by rw [← h.x, ← h.t, ← h.k1]; exact hacc
    obtain ⟨a1, a2, a3, _, a5, a6⟩ := hit₁.rejected hacc
    obtain ⟨b1, b2, b3, _, b5, b6⟩ := hit₂.rejected hacc₂
    have e1 : outs s₁' = outs s₁ := by rw [outs, a5, a6, outs]
    have e2 : outs s₂' = outs s₂ := by rw [outs, b5, b6, outs]
    exact ⟨by rw [a1, b1, h.t], hdt', by rw [a2, b2, h.x], by rw [a3, b3, h.k1],
      by rw [a5, a6, h.len₁], by rw [b5, b6, h.len₂], by rw [e1, a1]; exact h.le₁,
      by rw [e2, b1]; exact h.le₂, by rw [e1, e2]; exact h.agree, by rw [e1, e2]; exact h.sub⟩

theorem lockstep_loop {f : ℝ → (ι → ℝ) → (ι → ℝ)} {atol rtol : ℝ} {sel : Finset ι} {r₁ r₂ : Bool}
    {dense : ℝ → ℝ → (ι → ℝ) → (ι → ℝ) → (ι → ℝ) → (ι → ℝ) → List (ι → ℝ) → ℝ → (ι → ℝ)}
    (hs : FsalSolver solver args) {g₁ g₂ : List ℝ} {t0 T : ℝ} (hg₁ : g₁.Pairwise (· < ·))
    (hg₂ : g₂.Pairwise (· < ·)) (hT₁ : g₁.getLast? = some T) (hT₂ : g₂.getLast? = some T)
    (fuel : ℕ) : ∀ (s₁ s₂ : AState ℝ (ι → ℝ)), AInv g₁ t0 T s₁ → AInv g₂ t0 T s₂ →
    Lockstep r₂ g₁ s₁ s₂ →
    ∃ o₁ o₂, adaptiveLoop (odeintCfg (pureField f) solver args atol rtol sel (some dense) r₁) g₁ T fuel
        s₁ = .ok o₁ ∧
      adaptiveLoop (odeintCfg (pureField f) solver args atol rtol sel (some dense) r₂) g₂ T fuel s₂
        = .ok o₂ ∧ (o₁ = none ↔ o₂ = none) ∧
      ∀ s₁' s₂', o₁ = some s₁' → o₂ = some s₂' → Lockstep r₂ g₁ s₁' s₂' := by
  induction fuel with
  | zero => intro s₁ s₂ _ _ _; exact ⟨none, none, rfl, rfl, Iff.rfl, by simp⟩
  | succ fuel ih =>
    intro s₁ s₂ hi₁ hi₂ h
    by_cases ht : s₁.t < T
    · obtain ⟨s₁', s₂', e₁, e₂, hi₁', hi₂', h'⟩ := lockstep_iter (f := f) (atol := atol) (rtol := rtol)
        (sel := sel) (r₁ := r₁) (dense := dense) hs hg₁ hg₂ hT₁ hT₂ hi₁ hi₂ h ht
      obtain ⟨o₁, o₂, k1, k2, k3, k4⟩ := ih s₁' s₂' hi₁' hi₂' h'
      refine ⟨o₁, o₂, ?_, ?_, k3, k4⟩
      · rw [adaptiveLoop, if_pos ht, e₁]; exact k1
      · rw [adaptiveLoop, if_pos (h.t ▸ ht), e₂]; exact k2
    · refine ⟨some s₁, some s₂, ?_, ?_, by simp, ?_⟩
      · rw [adaptiveLoop, if_neg ht]; rfl
      · rw [adaptiveLoop, if_neg (h.t ▸ ht)]; rfl
      · intro a b ha hb
        cases ha; cases hb
        exact h

theorem adaptiveOdeint_eq_loop (cfg : AdaptiveCfg (Except PyErr) ℝ (ι → ℝ)) (fuel : ℕ) (k1 x : ι → ℝ)
    (dt t0 t1 T : ℝ) (rest : List ℝ) (hT : (t1 :: rest).getLast? = some T) :
    adaptiveOdeint cfg fuel k1 x dt (t0 :: t1 :: rest) =
      (adaptiveLoop cfg (t1 :: rest) T fuel (adaptiveInit k1 x dt t0)).map
        (fun r => r.map (fun s => (s.evalTimes, s.sol))) := by
  have hgT : (t0 :: t1 :: rest)[(t0 :: t1 :: rest).length - 1]? = some T := by
    rw [← List.getLast?_eq_getElem?, getLast?_cons_cons, hT]
  simp only [adaptiveOdeint, List.drop_succ_cons, List.drop_zero]
  have g0 : (getItem (t0 :: t1 :: rest) 0 : Except PyErr ℝ) = .ok t0 := rfl
  have gT : (getItem (t0 :: t1 :: rest) ((t0 :: t1 :: rest).length - 1) : Except PyErr ℝ) = .ok T := by
    rw [getItem, hgT]; rfl
  rw [g0, gT]
  simp only [bind, Except.bind]
  cases adaptiveLoop cfg (t1 :: rest) T fuel (adaptiveInit k1 x dt t0) <;> rfl

/-- **C32.** With the fourth order interpolator the requested interior times do not influence the
integration. Take two strictly increasing grids with the same first and last entries: for every number
of loop tests both calls return or neither does, and at every time that both return, the states are
equal. Moreover, if both use `return_all_eval`, each output of the first call that is not at one of its
requested times (so: each accepted step that is not a checkpoint) is an output of the second call. -/
theorem C32_grid_independent (hs : FsalSolver solver args) (htsit : solver.isTsit5 = false)
    (f : ℝ → (ι → ℝ) → (ι → ℝ)) (x : ι → ℝ) (t0 t1 t1' : ℝ) (rest rest' : List ℝ)
    (hinc : Increasing (t0 :: t1 :: rest)) (hinc' : Increasing (t0 :: t1' :: rest'))
    (hlast : (t1 :: rest).getLast? = (t1' :: rest').getLast?) (atol rtol : ℝ) (rae rae' : Bool)
    (saveAt saveAt' : List ℝ) (sel : Finset ι) (fuel : ℕ) :
    ∃ r r', odeint fuel (pureField f) x (t0 :: t1 :: rest) solver atol rtol true rae saveAt args sel
        = .ok r ∧
      odeint fuel (pureField f) x (t0 :: t1' :: rest') solver atol rtol true rae' saveAt' args sel
        = .ok r' ∧ (r = none ↔ r' = none) ∧
      ∀ ts xs ts' xs', r = some (ts, xs) → r' = some (ts', xs') →
        (∀ p ∈ ts.zip xs, ∀ q ∈ ts'.zip xs', p.1 = q.1 → p.2 = q.2) ∧
        (rae' = true → ∀ p ∈ ts.zip xs, p.1 ∈ t1 :: rest ∨ p ∈ ts'.zip xs') := by
  obtain ⟨dt, hdt, hi, e⟩ := odeint_forward fuel f x rest solver hs.adaptive atol rtol true rae saveAt
    args sel (List.pairwise_cons.1 hinc |>.1 t1 (by simp)).le
  obtain ⟨dt', hdt', hi', e'⟩ := odeint_forward fuel f x rest' solver hs.adaptive atol rtol true rae'
    saveAt' args sel (List.pairwise_cons.1 hinc' |>.1 t1' (by simp)).le
  have hdd : dt = dt' := by rw [hi] at hi'; cases hi'; rfl
  subst hdd
  obtain ⟨T, hT⟩ : ∃ T, (t1 :: rest).getLast? = some T := ⟨_, List.getLast?_eq_some_getLast (by simp)⟩
  have hT' : (t1' :: rest').getLast? = some T := by rw [← hlast, hT]
  have hio : odeintInterp solver true = some (fourthOrderDense (construct4th ℝ)) := by
    simp [odeintInterp, htsit]
  obtain ⟨o₁, o₂, k1, k2, k3, k4⟩ := lockstep_loop (f := f) (atol := atol) (rtol := rtol) (sel := sel)
    (r₁ := rae) (r₂ := rae') (dense := fourthOrderDense (construct4th ℝ)) hs
    (List.pairwise_cons.1 hinc).2 (List.pairwise_cons.1 hinc').2 hT hT' fuel _ _
    (adaptiveInit_inv (f t0 x) x hdt hinc hT) (adaptiveInit_inv (f t0 x) x hdt hinc' hT')
    ⟨rfl, rfl, rfl, rfl, rfl, rfl, by simp [outs, adaptiveInit], by simp [outs, adaptiveInit],
      by simp [outs, adaptiveInit], by simp [outs, adaptiveInit]⟩
  rw [e, e', hio, adaptiveOdeint_eq_loop _ _ _ _ _ _ _ _ _ hT,
    adaptiveOdeint_eq_loop _ _ _ _ _ _ _ _ _ hT', k1, k2]
  refine ⟨_, _, rfl, rfl, ?_, ?_⟩
  · simpa using k3
  · intro ts xs ts' xs' h h'
    obtain ⟨s, rfl, h1⟩ := Option.map_eq_some_iff.1 h
    obtain ⟨s', rfl, h1'⟩ := Option.map_eq_some_iff.1 h'
    cases h1; cases h1'
    have := k4 s s' rfl rfl
    exact ⟨this.agree, this.sub⟩

/-- **C32.** With the fourth order interpolator and without `return_all_eval` the returned times are
exactly `t_span`, with one state each; there is a sequence of accepted steps from `(t_span[0], x)` to
the last output such that every output is one of its points or lies strictly between two consecutive
ones and is the dense output of the solver step between them. -/
theorem C32_outputs (hs : FsalSolver solver args) (htsit : solver.isTsit5 = false)
    (f : ℝ → (ι → ℝ) → (ι → ℝ)) (x : ι → ℝ)
    (t0 t1 : ℝ) (rest : List ℝ) (hinc : Increasing (t0 :: t1 :: rest)) (atol rtol : ℝ)
    (saveAt : List ℝ) (sel : Finset ι) (fuel : ℕ) (ts : List ℝ) (xs : List (ι → ℝ))
    (h : odeint fuel (pureField f) x (t0 :: t1 :: rest) solver atol rtol true false saveAt args sel
      = .ok (some (ts, xs))) :
    ts = t0 :: t1 :: rest ∧ xs.length = ts.length ∧
    ∃ nodes : List (Point ι), nodes.IsChain (AcceptedStep solver args f sel atol rtol) ∧
      nodes.head? = some (t0, x) ∧ nodes.getLast? = (ts.zip xs).getLast? ∧
      ∀ p ∈ ts.zip xs, p ∈ nodes ∨ Interpolated solver args f
        (some (fourthOrderDense (construct4th ℝ))) nodes p := by
  obtain ⟨r, hr, h'⟩ := C21_times hs f x t0 t1 rest hinc atol rtol true saveAt sel fuel
  have hh := hr ▸ h
  cases hh
  obtain ⟨h1, h2, _⟩ := h' ts xs rfl
  refine ⟨h1, h2, ?_⟩
  obtain ⟨dt, hdt, -, e⟩ := odeint_forward fuel f x rest solver hs.adaptive atol rtol true false saveAt
    args sel (List.pairwise_cons.1 hinc |>.1 t1 (by simp)).le
  have hio : odeintInterp solver true = some (fourthOrderDense (construct4th ℝ)) := by
    simp [odeintInterp, htsit]
  rw [e, hio] at h
  obtain ⟨out, ho1, ho2, ho3, had⟩ := hs.out f atol rtol sel (some (fourthOrderDense (construct4th ℝ)))
    false
  obtain ⟨r', hr', h''⟩ := adaptiveOdeint_run ho1 had hinc hdt (f t0 x) x
    (fun s => ∃ nodes, NodesInv (AcceptedStep solver args f sel atol rtol)
      (Interpolated solver args f (some (fourthOrderDense (construct4th ℝ)))) f false (t1 :: rest)
      (t0, x) s nodes)
    ⟨[(t0, x)], ⟨rfl, rfl, by simp, rfl, rfl, fun _ => List.Sublist.refl _,
        fun p hp => Or.inl hp, fun _ => rfl⟩⟩
    (fun T s s' d hT hP hI _ hit _ => by
      obtain ⟨nodes, hn⟩ := hP
      exact nodesInv_step f ho2 ho3 hI (List.pairwise_cons.1 hinc).2 hn hit) fuel
  rw [h] at hr'
  cases hr'
  obtain ⟨s, rfl, rfl, ⟨nodes, hn⟩, hl, _⟩ := h'' ts xs rfl
  exact ⟨nodes, hn.chain, hn.head,
    by rw [hn.last]; exact (hn.ends (List.mem_of_getLast? hl)).symm,
    fun p hp => (hn.rest p hp).imp id And.right⟩

/-- Non-vacuity of C32: a run with interpolator that returns. -/
example : ∃ fuel ts xs, odeint fuel
      (pureField (fun (t : ℝ) (x : Fin 2 → ℝ) (i : Fin 2) => if t < x i then (-1 : ℝ) else 1))
      (fun _ => 0) [0, 1, 2, 3] (dopri5Solver (Except PyErr) ℝ (Fin 2 → ℝ) Unit) (1 / 1000)
      (1 / 1000) true false [] () Finset.univ = .ok (some (ts, xs)) ∧ ts = [0, 1, 2, 3] := by
  obtain ⟨fuel, ts, xs, h⟩ := C27_terminates_dopri5 ()
    (fun (t : ℝ) (x : Fin 2 → ℝ) (i : Fin 2) => if t < x i then (-1 : ℝ) else 1) 1
    (by intro t x i; split_ifs <;> simp) (fun _ => 0) 0 1 [2, 3] (by simp [Increasing]; norm_num)
    (1 / 1000) (1 / 1000) (by norm_num) (by norm_num) true false [] Finset.univ
  exact ⟨fuel, ts, xs, h, (C32_outputs (dopri5_fsalSolver ()) rfl _ _ _ _ _
    (by simp [Increasing]; norm_num) _ _ _ _ _ _ _ h).1⟩

end Torchdyn
