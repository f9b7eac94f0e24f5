import Verif.Spec.Hybrid
import Verif.Proofs.AdaptiveApi

/-! Lemmas about the loop of `odeint_hybrid`. -/

set_option linter.unusedSectionVars false
set_option linter.unusedSimpArgs false

namespace Torchdyn

open Spec

variable {ι A : Type} [Fintype ι]

theorem triggeredEvents_eq_zero (l : List Bool) : triggeredEvents l = 0 ↔ ∀ b ∈ l, b = false := by
  induction l with
  | nil => simp [triggeredEvents]
  | cons a l ih =>
    have e : triggeredEvents (a :: l) = (if a then 1 else 0) + triggeredEvents l := by
      cases a <;> simp [triggeredEvents, Nat.add_comm]
    rw [e]
    cases a <;> simp [ih]

theorem triggered_quiet (cbs : List (EventCallback ℝ (ι → ℝ))) (t : ℝ) (x : ι → ℝ) :
    triggeredEvents (eventStates cbs t x) = 0 ↔ Quiet cbs (t, x) := by
  rw [triggeredEvents_eq_zero]
  simp [eventStates, Quiet]

theorem firstActive_ok {l : List Bool} {i : ℕ} (h : (firstActive l : Except PyErr ℕ) = .ok i) :
    l[i]? = some true ∧ ∀ j < i, l[j]? = some false := by
  unfold firstActive at h
  split at h
  · rename_i k hk
    cases h
    rw [List.min?_eq_some_iff] at hk
    obtain ⟨h1, h2⟩ := hk
    simp only [List.mem_filter, List.mem_range] at h1 h2
    refine ⟨?_, ?_⟩
    · rw [List.getElem?_eq_getElem h1.1]
      have := h1.2
      rw [List.getD_eq_getElem?_getD, List.getElem?_eq_getElem h1.1] at this
      simpa using this
    · intro j hj
      have hjl : j < l.length := by omega
      rw [List.getElem?_eq_getElem hjl]
      by_contra hne
      have : l[j] = true := by
        cases hb : l[j] with
        | true => rfl
        | false => exact absurd (by rw [hb]) hne
      have := h2 j ⟨hjl, by rw [List.getD_eq_getElem?_getD, List.getElem?_eq_getElem hjl]; simpa using this⟩
      omega
  · cases h

/-- `FirstActive` from the index computed by the code. -/
theorem firstActive_spec {cbs : List (EventCallback ℝ (ι → ℝ))} {t : ℝ} {x : ι → ℝ} {i : ℕ}
    {cb : EventCallback ℝ (ι → ℝ)}
    (h : (firstActive (eventStates cbs t x) : Except PyErr ℕ) = .ok i)
    (hcb : (getItem cbs i : Except PyErr _) = .ok cb) : FirstActive cbs (t, x) cb := by
  obtain ⟨h1, h2⟩ := firstActive_ok h
  have hc : cbs[i]? = some cb := by
    unfold getItem at hcb
    split at hcb
    · rename_i a ha; cases hcb; exact ha
    · cases hcb
  refine ⟨i, hc, ?_, ?_⟩
  · rw [eventStates, List.getElem?_map, hc] at h1
    simpa using h1
  · intro j cb' hj hcb'
    have := h2 j hj
    rw [eventStates, List.getElem?_map, hcb'] at this
    simpa using this

/-- The last point of the outputs `l` recorded after `p`. -/
def lastPoint (p : Point ι) (l : List (Point ι)) : Point ι := l.getLast?.getD p

theorem lastPoint_cons (p q : Point ι) (l : List (Point ι)) :
    lastPoint p (q :: l) = lastPoint q l := by
  simp [lastPoint, List.getLast?_cons]

theorem trace_append {solver : Solver (Except PyErr) ℝ (ι → ℝ) A} {args : A}
    {f : ℝ → (ι → ℝ) → (ι → ℝ)} {sel : Finset ι} {atol rtol : ℝ}
    {cbs : List (EventCallback ℝ (ι → ℝ))} {p : Point ι} {l l' : List (Point ι)}
    (h : HybridTrace solver args f sel atol rtol cbs p l)
    (h' : HybridTrace solver args f sel atol rtol cbs (lastPoint p l) l') :
    HybridTrace solver args f sel atol rtol cbs p (l ++ l') := by
  induction h with
  | nil p => exact h'
  | flow h1 h2 _ ih =>
    rw [lastPoint_cons] at h'
    exact .flow h1 h2 (ih h')
  | jump cb h1 h2 h3 _ ih =>
    rw [lastPoint_cons, lastPoint_cons] at h'
    exact .jump cb h1 h2 h3 (ih h')

/-- The configuration used by `odeint_hybrid`. -/
noncomputable def hybridCfg (f : ℝ → (ι → ℝ) → (ι → ℝ)) (solver : Solver (Except PyErr) ℝ (ι → ℝ) A)
    (args : A) (atol rtol : ℝ) (sel : Finset ι) (callbacks : List (EventCallback ℝ (ι → ℝ)))
    (eventTol : ℝ) : HybridCfg (Except PyErr) ℝ (ι → ℝ) :=
  { step := fun x t dt k1 => solver.step (pureField f) x t dt k1 args
    errRatio := errorRatio sel atol rtol
    adapt := fun dt er => adaptStep dt er solver.safety solver.minFactor solver.maxFactor solver.order
    callbacks, eventTol }

/-- The initial state of the loop. -/
def hybridInit (t : ℝ) (x k1 : ι → ℝ) (dt : ℝ) : HState ℝ (ι → ℝ) :=
  { t, dt, x, k1 := some k1, ckpt := 0, ckptFlag := false, dtOld := dt, evalTimes := [t], sol := [x] }

theorem odeintHybrid_eq (fuel : ℕ) (f : ℝ → (ι → ℝ) → (ι → ℝ)) (x : ι → ℝ) (t0 T : ℝ) (tEval : List ℝ)
    (hT : (t0 :: tEval).getLast? = some T) (jSpan : ℕ) (solver : Solver (Except PyErr) ℝ (ι → ℝ) A)
    (cbs : List (EventCallback ℝ (ι → ℝ))) (atol rtol eventTol : ℝ) (jumpFirst : Bool) (sel : Finset ι)
    (args : A) :
    odeintHybrid fuel (pureField f) x (t0 :: tEval) jSpan solver cbs atol rtol eventTol jumpFirst sel
      args = (do
        let xj ← (initialJump cbs jumpFirst t0 x : Except PyErr _)
        let dt ← initStep (m := Except PyErr) (pureField f) (f t0 xj.1) xj.1 t0 solver.order atol rtol
        let r ← hybridLoop (hybridCfg f solver args atol rtol sel cbs eventTol) tEval T xj.2 jSpan fuel
          (hybridInit t0 xj.1 (f t0 xj.1) dt)
        pure (r.map (fun s => (s.evalTimes, s.sol)))) := by
  have hgT : (t0 :: tEval)[(t0 :: tEval).length - 1]? = some T := by
    rw [← List.getLast?_eq_getElem?, hT]
  have g0 : (getItem (t0 :: tEval) 0 : Except PyErr ℝ) = .ok t0 := rfl
  have gT : (getItem (t0 :: tEval) ((t0 :: tEval).length - 1) : Except PyErr ℝ) = .ok T := by
    rw [getItem, hgT]; rfl
  simp only [odeintHybrid, g0, gT]
  rfl

/-- The step size is positive and does not depend on an exception. -/
theorem initStep_ok (f : ℝ → (ι → ℝ) → (ι → ℝ)) (f0 x0 : ι → ℝ) (t0 : ℝ) (order : ℕ) (atol rtol : ℝ) :
    ∃ dt, initStep (m := Except PyErr) (pureField f) f0 x0 t0 order atol rtol = .ok dt := ⟨_, rfl⟩

section inv

variable {solver : Solver (Except PyErr) ℝ (ι → ℝ) A} {args : A} {f : ℝ → (ι → ℝ) → (ι → ℝ)}
  {sel : Finset ι} {atol rtol eventTol : ℝ} {cbs : List (EventCallback ℝ (ι → ℝ))}

/-- `k1` is absent or the derivative at the current point. -/
def KOk (f : ℝ → (ι → ℝ) → (ι → ℝ)) (t : ℝ) (x : ι → ℝ) (k1 : Option (ι → ℝ)) : Prop :=
  k1 = none ∨ k1 = some (f t x)

theorem step_kok (hs : FsalSolver solver args) {t dt : ℝ} {x : ι → ℝ} {k1 : Option (ι → ℝ)}
    (hk : KOk f t x k1) : ∃ k x' e st,
      (hybridCfg f solver args atol rtol sel cbs eventTol).step x t dt k1 = .ok (.four k x' e st) ∧
      solver.step (fun t x => .ok (f t x)) x t dt none args = .ok (.four k x' e st) ∧
      k = f (t + dt) x' := by
  obtain ⟨k, x', e, st, h⟩ := hs.step_ok f x t dt none
  refine ⟨k, x', e, st, ?_, h, hs.fsal f x t dt none _ _ _ _ h⟩
  rcases hk with rfl | rfl
  · exact h
  · exact (hs.first_stage f x t dt).trans h

/-- What the bisection leaves: the inner point is reached by quiet steps from the start, and the
events are those at the end of a step from the inner point, unless they are all `false`. -/
structure BInv (solver : Solver (Except PyErr) ℝ (ι → ℝ) A) (args : A) (f : ℝ → (ι → ℝ) → (ι → ℝ))
    (cbs : List (EventCallback ℝ (ι → ℝ))) (p : Point ι) (b : BState ℝ (ι → ℝ)) : Prop where
  reach : Relation.ReflTransGen (fun p q => AnyStep solver args f p q ∧ Quiet cbs q) p
    (b.tInner, b.xInner)
  k1 : KOk f b.tInner b.xInner b.k1
  events : (∀ e ∈ b.events, e = false) ∨ ∃ c, AnyStep solver args f (b.tInner, b.xInner) c ∧
    b.events = eventStates cbs c.1 c.2

theorem bisect_inv (hs : FsalSolver solver args) (p : Point ι) (dt : ℝ) (n : ℕ) :
    ∀ b, BInv solver args f cbs p b →
    ∃ b', bisect (hybridCfg f solver args atol rtol sel cbs eventTol) dt n b = .ok b' ∧
      BInv solver args f cbs p b' := by
  induction n with
  | zero => intro b hb; exact ⟨b, rfl, hb⟩
  | succ n ih =>
    intro b hb
    by_cases htol : eventTol < b.dtInner
    · obtain ⟨k, x', e, st, h1, h2, h3⟩ := step_kok (atol := atol) (rtol := rtol) (sel := sel) (cbs := cbs)
        (eventTol := eventTol) (dt := b.dtInner / 2) hs hb.k1
      have hany : AnyStep solver args f (b.tInner, b.xInner) (b.tInner + b.dtInner / 2, x') :=
        ⟨k, e, st, by simp only [add_sub_cancel_left]; exact h2⟩
      have hcb : (hybridCfg f solver args atol rtol sel cbs eventTol).callbacks = cbs := rfl
      have htol' : (hybridCfg f solver args atol rtol sel cbs eventTol).eventTol < b.dtInner := htol
      simp only [bisect, if_pos htol', h1, bind, Except.bind, StepOut.unpack4, pure, Except.pure, hcb]
      by_cases hq : triggeredEvents (eventStates cbs (b.tInner + b.dtInner / 2) x') = 0
      · rw [if_pos hq]
        refine ih _ ⟨hb.reach.tail ⟨hany, (triggered_quiet _ _ _).1 hq⟩, Or.inr (by rw [h3]), Or.inl ?_⟩
        exact (triggeredEvents_eq_zero _).1 hq
      · rw [if_neg hq]
        exact ih _ ⟨hb.reach, hb.k1, Or.inr ⟨_, hany, rfl⟩⟩
    · have htol' : ¬ (hybridCfg f solver args atol rtol sel cbs eventTol).eventTol < b.dtInner := htol
      exact ⟨b, by simp only [bisect, if_neg htol']; rfl, hb⟩

/-- The outputs recorded so far. -/
def houts (s : HState ℝ (ι → ℝ)) : List (Point ι) := s.evalTimes.zip s.sol

/-- Invariant of the main loop: the outputs form a trace that ends at the current point. -/
structure TraceInv (solver : Solver (Except PyErr) ℝ (ι → ℝ) A) (args : A)
    (f : ℝ → (ι → ℝ) → (ι → ℝ)) (sel : Finset ι) (atol rtol : ℝ)
    (cbs : List (EventCallback ℝ (ι → ℝ))) (p0 : Point ι) (s : HState ℝ (ι → ℝ)) : Prop where
  k1 : KOk f s.t s.x s.k1
  len : s.sol.length = s.evalTimes.length
  trace : ∃ l, houts s = p0 :: l ∧ HybridTrace solver args f sel atol rtol cbs p0 l ∧
    lastPoint p0 l = (s.t, s.x)

/-- The start of the bisection. -/
def bisectStart (s : HState ℝ (ι → ℝ)) (dt : ℝ) (evid : List Bool) : BState ℝ (ι → ℝ) :=
  { tInner := s.t, dtInner := dt, xInner := s.x, k1 := s.k1, events := evid }

/-- The state after a jump of `cb` at the point found by the bisection. -/
def afterJump (s : HState ℝ (ι → ℝ)) (d : ℝ × ℝ × Bool × ℕ) (b : BState ℝ (ι → ℝ))
    (cb : EventCallback ℝ (ι → ℝ)) : HState ℝ (ι → ℝ) :=
  { t := b.tInner, dt := d.1, x := cb.jumpMap b.tInner b.xInner, k1 := none, ckpt := d.2.2.2,
    ckptFlag := d.2.2.1, dtOld := d.2.1, evalTimes := s.evalTimes ++ [b.tInner] ++ [b.tInner],
    sol := s.sol ++ [b.xInner] ++ [cb.jumpMap b.tInner b.xInner] }

/-- One iteration: it raises `ValueError`, or it performs a flow step, a rejection or a jump. -/
theorem hybridIter_cases (hs : FsalSolver solver args) (tEval : List ℝ) (T : ℝ) (s : HState ℝ (ι → ℝ))
    (hk : KOk f s.t s.x s.k1) :
    let cfg := hybridCfg f solver args atol rtol sel cbs eventTol
    let d := hybridDt tEval T s
    ∃ k x' e st, solver.step (fun t x => .ok (f t x)) s.x s.t d.1 none args = .ok (.four k x' e st) ∧
      k = f (s.t + d.1) x' ∧
      (Quiet cbs (s.t + d.1, x') ∧
        hybridIter cfg tEval T s = .ok (hybridFlow cfg s d.1 d.2.1 d.2.2.1 d.2.2.2 k x' e) ∨
       ¬ Quiet cbs (s.t + d.1, x') ∧ ∃ b, BInv solver args f cbs (s.t, s.x) b ∧
        bisect cfg d.1 100 (bisectStart s d.1 (eventStates cbs (s.t + d.1) x')) = .ok b ∧
        ((∀ e ∈ b.events, e = false) ∧ hybridIter cfg tEval T s = .error .valueError ∨
         ∃ c cb, AnyStep solver args f (b.tInner, b.xInner) c ∧ FirstActive cbs c cb ∧
          b.events = eventStates cbs c.1 c.2 ∧ hybridIter cfg tEval T s = .ok (afterJump s d b cb))) := by
  intro cfg d
  obtain ⟨k, x', e, st, h1, h2, h3⟩ := step_kok (atol := atol) (rtol := rtol) (sel := sel) (cbs := cbs)
    (eventTol := eventTol) (dt := d.1) hs hk
  refine ⟨k, x', e, st, h2, h3, ?_⟩
  have hcb : cfg.callbacks = cbs := rfl
  have hiter : hybridIter cfg tEval T s =
      if 0 < triggeredEvents (eventStates cbs (s.t + d.1) x') then
        hybridJump cfg s d.1 d.2.1 d.2.2.1 d.2.2.2 (eventStates cbs (s.t + d.1) x')
      else .ok (hybridFlow cfg s d.1 d.2.1 d.2.2.1 d.2.2.2 k x' e) := by
    simp only [hybridIter]
    have h1' : cfg.step s.x s.t (hybridDt tEval T s).1 s.k1 = .ok (.four k x' e st) := h1
    rw [h1']
    rfl
  by_cases hq : triggeredEvents (eventStates cbs (s.t + d.1) x') = 0
  · left
    refine ⟨(triggered_quiet _ _ _).1 hq, ?_⟩
    rw [hiter, if_neg (by omega)]
  · right
    refine ⟨fun h => hq ((triggered_quiet _ _ _).2 h), ?_⟩
    have hb0 : BInv solver args f cbs (s.t, s.x)
        (bisectStart s d.1 (eventStates cbs (s.t + d.1) x')) :=
      ⟨Relation.ReflTransGen.refl, hk, Or.inr ⟨(s.t + d.1, x'), ⟨k, e, st, by
        simp only [bisectStart, add_sub_cancel_left]; exact h2⟩, rfl⟩⟩
    obtain ⟨b, hb1, hb2⟩ := bisect_inv (atol := atol) (rtol := rtol) (sel := sel) (eventTol := eventTol)
      hs (s.t, s.x) d.1 100 _ hb0
    refine ⟨b, hb2, hb1, ?_⟩
    rw [hiter, if_pos (by omega)]
    have hb1' : bisect cfg d.1 100 ⟨s.t, d.1, s.x, s.k1, eventStates cbs (s.t + d.1) x'⟩ = .ok b := hb1
    simp only [hybridJump, hb1', bind, Except.bind]
    cases hfa : (firstActive b.events : Except PyErr ℕ) with
    | error err =>
      left
      have : err = .valueError ∧ ∀ e ∈ b.events, e = false := by
        unfold firstActive at hfa
        split at hfa
        · cases hfa
        · rename_i hn
          cases hfa
          refine ⟨rfl, ?_⟩
          rw [List.min?_eq_none_iff, List.filter_eq_nil_iff] at hn
          intro e he
          obtain ⟨i, hi, rfl⟩ := List.getElem_of_mem he
          have := hn i (List.mem_range.2 hi)
          rw [List.getD_eq_getElem?_getD, List.getElem?_eq_getElem hi] at this
          simpa using this
      exact ⟨this.2, by rw [this.1]⟩
    | ok i =>
      right
      have hact := firstActive_ok hfa
      rcases hb2.events with hev | ⟨c, hc1, hc2⟩
      · have hm : (true : Bool) ∈ b.events := List.mem_of_getElem? hact.1
        exact absurd (hev _ hm) (by simp)
      · have hc2' := hc2
        rw [hc2] at hfa hact
        have hlt : i < cbs.length := by
          have := (List.getElem?_eq_some_iff.1 hact.1).1
          simpa [eventStates] using this
        have hg : (getItem cbs i : Except PyErr _) = .ok cbs[i] := by
          unfold getItem
          rw [List.getElem?_eq_getElem hlt]
          rfl
        refine ⟨c, cbs[i], hc1, firstActive_spec hfa hg, hc2', ?_⟩
        simp only [hcb, hg]
        rfl

theorem traceInv_step (hs : FsalSolver solver args) {tEval : List ℝ} {T : ℝ} {s s' : HState ℝ (ι → ℝ)}
    {p0 : Point ι} (h : TraceInv solver args f sel atol rtol cbs p0 s)
    (hit : hybridIter (hybridCfg f solver args atol rtol sel cbs eventTol) tEval T s = .ok s') :
    TraceInv solver args f sel atol rtol cbs p0 s' := by
  obtain ⟨l, hl1, hl2, hl3⟩ := h.trace
  obtain ⟨k, x', e, st, h1, h2, hcase⟩ := hybridIter_cases (sel := sel) (atol := atol) (rtol := rtol)
    (eventTol := eventTol) (cbs := cbs) hs tEval T s h.k1
  rcases hcase with ⟨hq, hr⟩ | ⟨-, b, hb, -, ⟨-, hr⟩ | ⟨c, cb, hc1, hc2, -, hr⟩⟩
  · rw [hit] at hr
    cases hr
    simp only [hybridFlow]
    by_cases hacc : errorRatio sel atol rtol s.x x' e ≤ 1
    · rw [if_pos (show (hybridCfg f solver args atol rtol sel cbs eventTol).errRatio s.x x' e ≤ 1 from hacc)]
      refine ⟨Or.inr (by rw [h2]), by simp [h.len], l ++ [(s.t + (hybridDt tEval T s).1, x')], ?_, ?_, ?_⟩
      · simp only [houts]
        rw [List.zip_append h.len.symm]
        have : s.evalTimes.zip s.sol = p0 :: l := hl1
        rw [this]
        rfl
      · refine trace_append hl2 ?_
        rw [hl3]
        refine .flow ⟨k, e, st, ?_, ?_⟩ hq (.nil _)
        · simp only [add_sub_cancel_left]; exact h1
        · rw [← errorRatio_eq]; exact hacc
      · simp [lastPoint]
    · rw [if_neg (show ¬ (hybridCfg f solver args atol rtol sel cbs eventTol).errRatio s.x x' e ≤ 1
        from hacc)]
      exact ⟨h.k1, h.len, l, hl1, hl2, hl3⟩
  · rw [hit] at hr; cases hr
  · rw [hit] at hr
    cases hr
    refine ⟨Or.inl rfl, by simp [afterJump, h.len],
      l ++ [(b.tInner, b.xInner), (b.tInner, cb.jumpMap b.tInner b.xInner)], ?_, ?_, ?_⟩
    · simp only [houts, afterJump]
      rw [List.zip_append (by simp [h.len]), List.zip_append h.len.symm]
      have : s.evalTimes.zip s.sol = p0 :: l := hl1
      rw [this]
      simp
    · refine trace_append hl2 ?_
      rw [hl3]
      exact .jump cb hb.reach hc1 hc2 (.nil _)
    · simp [lastPoint, afterJump]

/-- Induction over the loop. -/
theorem hybridLoop_induct (cfg : HybridCfg (Except PyErr) ℝ (ι → ℝ)) (tEval : List ℝ) (T : ℝ)
    (jnum jSpan : ℕ) (P : HState ℝ (ι → ℝ) → Prop)
    (hP : ∀ s s', P s → s.t < T → hybridIter cfg tEval T s = .ok s' → P s') (fuel : ℕ) :
    ∀ s r, P s → hybridLoop cfg tEval T jnum jSpan fuel s = .ok (some r) →
      P r ∧ ¬ (r.t < T ∧ jnum < jSpan) := by
  induction fuel with
  | zero => intro s r _ h; cases h
  | succ fuel ih =>
    intro s r hs h
    rw [hybridLoop] at h
    by_cases hc : s.t < T ∧ jnum < jSpan
    · rw [if_pos hc] at h
      cases hi : hybridIter cfg tEval T s with
      | error e => rw [hi] at h; cases h
      | ok s' =>
        rw [hi] at h
        exact ih s' r (hP s s' hs hc.1 hi) h
    · rw [if_neg hc] at h
      cases h
      exact ⟨hs, hc⟩

end inv

end Torchdyn
