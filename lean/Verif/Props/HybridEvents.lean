import Verif.Props.HybridWitness

/-!
Property C80: events are located to within `event_tol`; and the part of C34 about runs that `j_span` suppresses.
-/

set_option linter.unusedSectionVars false
set_option linter.unusedSimpArgs false

namespace Torchdyn

open Spec

variable {ι A : Type} [Fintype ι] {solver : Solver (Except PyErr) ℝ (ι → ℝ) A} {args : A}

/-- Forward solver steps. -/
abbrev FwdReach (solver : Solver (Except PyErr) ℝ (ι → ℝ) A) (args : A) (f : ℝ → (ι → ℝ) → (ι → ℝ)) :
    Point ι → Point ι → Prop :=
  Relation.ReflTransGen (fun p q => p.1 ≤ q.1 ∧ AnyStep solver args f p q)

/-- Forward solver steps with no event at their ends. -/
abbrev FwdQuiet (solver : Solver (Except PyErr) ℝ (ι → ℝ) A) (args : A) (f : ℝ → (ι → ℝ) → (ι → ℝ))
    (cbs : List (EventCallback ℝ (ι → ℝ))) : Point ι → Point ι → Prop :=
  Relation.ReflTransGen (fun p q => p.1 ≤ q.1 ∧ AnyStep solver args f p q ∧ Quiet cbs q)

theorem FwdQuiet.fwd {f : ℝ → (ι → ℝ) → (ι → ℝ)} {cbs : List (EventCallback ℝ (ι → ℝ))} {p q : Point ι}
    (h : FwdQuiet solver args f cbs p q) : FwdReach solver args f p q :=
  Relation.ReflTransGen.mono (fun _ _ h => ⟨h.1, h.2.1⟩) _ _ h

/-- An upper bound on the number of bisection steps still to be made: the next one halves `D / 2 ^ i`, the last quiet one was
at level `j`, and `D ≤ 2 ^ k * tol`. -/
def bisectBudget (k j i : ℕ) : ℕ := (k - i) + ∑ l ∈ Finset.Ioc j k, l

theorem bisectBudget_quiet {k j i : ℕ} (hj : j ≤ i) (hi : i < k) :
    bisectBudget k (i + 1) 0 + 1 ≤ bisectBudget k j i := by
  unfold bisectBudget
  have h : Finset.Ioc j k = Finset.Ioc j (i + 1) ∪ Finset.Ioc (i + 1) k :=
    (Finset.Ioc_union_Ioc_eq_Ioc (by omega) (by omega)).symm
  have hd : Disjoint (Finset.Ioc j (i + 1)) (Finset.Ioc (i + 1) k) := by
    rw [Finset.disjoint_left]
    intro a ha hb
    simp only [Finset.mem_Ioc] at ha hb
    omega
  rw [h, Finset.sum_union hd]
  have : i + 1 ≤ ∑ l ∈ Finset.Ioc j (i + 1), l :=
    Finset.single_le_sum (f := fun l : ℕ => l) (fun _ _ => Nat.zero_le _) (Finset.mem_Ioc.2 ⟨by omega, le_refl _⟩)
  omega

theorem bisectBudget_active {k j i : ℕ} (hi : i < k) : bisectBudget k j (i + 1) + 1 ≤ bisectBudget k j i := by
  unfold bisectBudget
  omega

theorem bisectBudget_pos {k j i : ℕ} (hi : i < k) : 0 < bisectBudget k j i := by
  unfold bisectBudget
  omega

/-- The bisection locates a persistent event within the tolerance if it has enough iterations. -/
theorem bisect_located (hs : FsalSolver solver args) {f : ℝ → (ι → ℝ) → (ι → ℝ)}
    {cbs : List (EventCallback ℝ (ι → ℝ))} {atol rtol tol : ℝ} {sel : Finset ι}
    (hpers : Persistent solver args f cbs) (p : Point ι) {D : ℝ} (hD : 0 ≤ D) {k : ℕ}
    (hk : D ≤ 2 ^ k * tol) (n : ℕ) :
    ∀ (b : BState ℝ (ι → ℝ)) (i j : ℕ), bisectBudget k j i ≤ n → b.dtInner = D / 2 ^ i →
      KOk f b.tInner b.xInner b.k1 → FwdQuiet solver args f cbs p (b.tInner, b.xInner) →
      (∃ E, FwdReach solver args f p E ∧ ¬ Quiet cbs E ∧ E.1 = b.tInner + D / 2 ^ j) →
      ((i = 0 ∧ 0 < j ∧ tol < D) ∨ ∃ c, AnyStep solver args f (b.tInner, b.xInner) c ∧ ¬ Quiet cbs c ∧
        c.1 = b.tInner + D / 2 ^ i ∧ b.events = eventStates cbs c.1 c.2) →
      ∃ b', bisect (hybridCfg f solver args atol rtol sel cbs tol) D n b = .ok b' ∧
        FwdQuiet solver args f cbs p (b'.tInner, b'.xInner) ∧
        ∃ c, AnyStep solver args f (b'.tInner, b'.xInner) c ∧ ¬ Quiet cbs c ∧ b'.tInner ≤ c.1 ∧
          c.1 ≤ b'.tInner + tol ∧ b'.events = eventStates cbs c.1 c.2 := by
  have hpow : ∀ i : ℕ, (0 : ℝ) < 2 ^ i := fun i => by positivity
  induction n with
  | zero =>
    intro b i j hn hdi hkok hreach hE hc
    have hik : k ≤ i := by
      by_contra h
      have := bisectBudget_pos (j := j) (not_le.1 h)
      omega
    have hle : D / 2 ^ i ≤ tol := by
      rw [div_le_iff₀ (hpow i)]
      rcases le_or_gt 0 tol with ht | ht
      · calc D ≤ 2 ^ k * tol := hk
          _ ≤ 2 ^ i * tol := by gcongr; norm_num
          _ = tol * 2 ^ i := by ring
      · have h2 : (2 : ℝ) ^ k * tol < 0 := mul_neg_of_pos_of_neg (hpow k) ht
        linarith
    rcases hc with ⟨rfl, hj, hlt⟩ | ⟨c, h1, h2, h3, h4⟩
    · simp only [pow_zero, div_one] at hle
      linarith
    · exact ⟨b, rfl, hreach, c, h1, h2, by rw [h3]; have := div_nonneg hD (hpow i).le; linarith,
        by rw [h3]; linarith, h4⟩
  | succ n ih =>
    intro b i j hn hdi hkok hreach hE hc
    by_cases htol : tol < b.dtInner
    · have hik : i < k := by
        by_contra h
        have hki : k ≤ i := not_lt.1 h
        rw [hdi, lt_div_iff₀ (hpow i)] at htol
        rcases le_or_gt 0 tol with ht | ht
        · have : (2 : ℝ) ^ k * tol ≤ 2 ^ i * tol := by gcongr; norm_num
          linarith
        · have h2 : (2 : ℝ) ^ k * tol < 0 := mul_neg_of_pos_of_neg (hpow k) ht
          linarith
      obtain ⟨k', x', e, st, h1, h2, h3⟩ := step_kok (atol := atol) (rtol := rtol) (sel := sel) (cbs := cbs)
        (eventTol := tol) (dt := b.dtInner / 2) hs hkok
      have hany : AnyStep solver args f (b.tInner, b.xInner) (b.tInner + b.dtInner / 2, x') :=
        ⟨k', e, st, by simp only [add_sub_cancel_left]; exact h2⟩
      have hcb : (hybridCfg f solver args atol rtol sel cbs tol).callbacks = cbs := rfl
      have htol' : (hybridCfg f solver args atol rtol sel cbs tol).eventTol < b.dtInner := htol
      simp only [bisect, if_pos htol', h1, bind, Except.bind, StepOut.unpack4, pure, Except.pure, hcb]
      have hhalf : b.dtInner / 2 = D / 2 ^ (i + 1) := by rw [hdi, pow_succ]; field_simp
      have hnn : 0 ≤ D / 2 ^ (i + 1) := div_nonneg hD (hpow _).le
      have hfwd : (b.tInner, b.xInner).1 ≤ (b.tInner + b.dtInner / 2, x').1 := by
        simp only; linarith
      obtain ⟨E, hE1, hE2, hE3⟩ := hE
      by_cases hq : triggeredEvents (eventStates cbs (b.tInner + b.dtInner / 2) x') = 0
      · rw [if_pos hq]
        have hquiet := (triggered_quiet _ _ _).1 hq
        have hji : j ≤ i := by
          by_contra hlt
          have hle : i + 1 ≤ j := by omega
          refine hpers p E _ hE1 (hreach.fwd.tail ⟨hfwd, hany⟩) ?_ hE2 hquiet
          simp only [hE3, hhalf]
          have : D / 2 ^ j ≤ D / 2 ^ (i + 1) := by gcongr; norm_num
          linarith
        rcases hc with ⟨rfl, hj, -⟩ | ⟨c, g1, g2, g3, g4⟩
        · omega
        · have hcfwd : (b.tInner, b.xInner).1 ≤ c.1 := by
            rw [g3]; have := div_nonneg hD (hpow i).le; simp only; linarith
          refine ih ⟨b.tInner + b.dtInner / 2, D, x', some k', _⟩ 0 (i + 1) ?_ (by simp) (Or.inr (by rw [h3]))
            (hreach.tail ⟨hfwd, hany, hquiet⟩)
            ⟨c, hreach.fwd.tail ⟨hcfwd, g1⟩, g2, ?_⟩ (Or.inl ⟨rfl, by omega, ?_⟩)
          · have := bisectBudget_quiet hji hik
            omega
          · simp only [g3, hhalf, pow_succ]; field_simp; ring
          · calc tol < b.dtInner := htol
              _ = D / 2 ^ i := hdi
              _ ≤ D := div_le_self hD (one_le_pow₀ (by norm_num))
      · rw [if_neg hq]
        refine ih ⟨b.tInner, b.dtInner / 2, b.xInner, b.k1, _⟩ (i + 1) j ?_ hhalf hkok hreach ⟨E, hE1, hE2, hE3⟩
          (Or.inr ⟨_, hany, fun h => hq ((triggered_quiet _ _ _).2 h), by simp only [hhalf], rfl⟩)
        have := bisectBudget_active (j := j) hik
        omega
    · have htol' : ¬ (hybridCfg f solver args atol rtol sel cbs tol).eventTol < b.dtInner := htol
      refine ⟨b, by simp only [bisect, if_neg htol']; rfl, hreach, ?_⟩
      rw [not_lt, hdi] at htol
      rcases hc with ⟨rfl, hj, hlt⟩ | ⟨c, h1, h2, h3, h4⟩
      · simp only [pow_zero, div_one] at htol
        linarith
      · exact ⟨c, h1, h2, by rw [h3]; have := div_nonneg hD (hpow i).le; linarith, by rw [h3]; linarith, h4⟩

theorem located_append {f : ℝ → (ι → ℝ) → (ι → ℝ)} {sel : Finset ι} {atol rtol tol : ℝ}
    {cbs : List (EventCallback ℝ (ι → ℝ))} {p : Point ι} {l l' : List (Point ι)}
    (h : LocatedTrace solver args f sel atol rtol tol cbs p l)
    (h' : LocatedTrace solver args f sel atol rtol tol cbs (lastPoint p l) l') :
    LocatedTrace solver args f sel atol rtol tol cbs p (l ++ l') := by
  induction h with
  | nil p => exact h'
  | flow h1 h2 _ ih =>
    rw [lastPoint_cons] at h'
    exact .flow h1 h2 (ih h')
  | jump cb h1 h2 h3 h4 h5 _ ih =>
    rw [lastPoint_cons, lastPoint_cons] at h'
    exact .jump cb h1 h2 h3 h4 h5 (ih h')

theorem firstActive_congr {cbs : List (EventCallback ℝ (ι → ℝ))} {p q : Point ι} {cb : EventCallback ℝ (ι → ℝ)}
    (h : eventStates cbs p.1 p.2 = eventStates cbs q.1 q.2) (hp : FirstActive cbs p cb) : FirstActive cbs q cb := by
  have hget : ∀ (i : ℕ) cb, cbs[i]? = some cb → cb.checkEvent p.1 p.2 = cb.checkEvent q.1 q.2 := by
    intro i cb hi
    have := congrArg (fun l => l[i]?) h
    simpa [eventStates, List.getElem?_map, hi] using this
  obtain ⟨i, h1, h2, h3⟩ := hp
  exact ⟨i, h1, (hget i cb h1).symm.trans h2, fun j cb' hj hcb => (hget j cb' hcb).symm.trans (h3 j cb' hj hcb)⟩

/-- Invariant of the main loop for C80. -/
structure LocInv (solver : Solver (Except PyErr) ℝ (ι → ℝ) A) (args : A) (f : ℝ → (ι → ℝ) → (ι → ℝ)) (sel : Finset ι)
    (atol rtol tol : ℝ) (cbs : List (EventCallback ℝ (ι → ℝ))) (p0 : Point ι) (s : HState ℝ (ι → ℝ)) : Prop where
  k1 : KOk f s.t s.x s.k1
  len : s.sol.length = s.evalTimes.length
  trace : ∃ l, houts s = p0 :: l ∧ LocatedTrace solver args f sel atol rtol tol cbs p0 l ∧ lastPoint p0 l = (s.t, s.x)

theorem locInv_step (hs : FsalSolver solver args) {f : ℝ → (ι → ℝ) → (ι → ℝ)} {sel : Finset ι} {atol rtol tol : ℝ}
    {cbs : List (EventCallback ℝ (ι → ℝ))} (hpers : Persistent solver args f cbs) {tEval : List ℝ} {t0 T : ℝ}
    (hsort : tEval.Pairwise (· ≤ ·)) {k : ℕ} (hk : bisectBudget k 0 0 ≤ 100) (hT : T - t0 ≤ 2 ^ k * tol)
    {s : HState ℝ (ι → ℝ)} {p0 : Point ι} (h : LocInv solver args f sel atol rtol tol cbs p0 s)
    (hD : DInv tEval t0 T s) :
    ∃ s', hybridIter (hybridCfg f solver args atol rtol sel cbs tol) tEval T s = .ok s' ∧
      LocInv solver args f sel atol rtol tol cbs p0 s' ∧ DInv tEval t0 T s' := by
  obtain ⟨l, hl1, hl2, hl3⟩ := h.trace
  obtain ⟨g1, g2, g3, g4, _⟩ := hybridDt_spec hsort hD
  obtain ⟨k', x', e, st, h1, h2, hcase⟩ := hybridIter_cases (sel := sel) (atol := atol) (rtol := rtol)
    (eventTol := tol) (cbs := cbs) hs tEval T s h.k1
  rcases hcase with ⟨hq, hr⟩ | ⟨hnq, b, hb, hbis, hr⟩
  · refine ⟨_, hr, ?_, dinv_flow hs hsort hD f atol rtol sel cbs tol k' x' e⟩
    simp only [hybridFlow]
    by_cases hacc : errorRatio sel atol rtol s.x x' e ≤ 1
    · rw [if_pos (show (hybridCfg f solver args atol rtol sel cbs tol).errRatio s.x x' e ≤ 1 from hacc)]
      refine ⟨Or.inr (by rw [h2]), by simp [h.len], l ++ [(s.t + (hybridDt tEval T s).1, x')], ?_, ?_, ?_⟩
      · simp only [houts]
        rw [List.zip_append h.len.symm]
        have : s.evalTimes.zip s.sol = p0 :: l := hl1
        rw [this]
        rfl
      · refine located_append hl2 ?_
        rw [hl3]
        refine .flow ⟨k', e, st, ?_, ?_⟩ hq (.nil _)
        · simp only [add_sub_cancel_left]; exact h1
        · rw [← errorRatio_eq]; exact hacc
      · simp [lastPoint]
    · rw [if_neg (show ¬ (hybridCfg f solver args atol rtol sel cbs tol).errRatio s.x x' e ≤ 1 from hacc)]
      exact ⟨h.k1, h.len, l, hl1, hl2, hl3⟩
  · have hstep : AnyStep solver args f (s.t, s.x) (s.t + (hybridDt tEval T s).1, x') :=
      ⟨k', e, st, by simp only [add_sub_cancel_left]; exact h1⟩
    have hfwd : (s.t, s.x).1 ≤ (s.t + (hybridDt tEval T s).1, x').1 := by simp only; linarith
    have hsingle : FwdReach solver args f (s.t, s.x) (s.t + (hybridDt tEval T s).1, x') :=
      Relation.ReflTransGen.single ⟨hfwd, hstep⟩
    have hDk : (hybridDt tEval T s).1 ≤ 2 ^ k * tol := by
      have := hD.ge
      linarith
    obtain ⟨b', hb1, hb2, c, hc1, hc2, hc3, hc4, hc5⟩ := bisect_located (atol := atol) (rtol := rtol) (sel := sel)
      hs hpers (s.t, s.x) g1 hDk 100
      (bisectStart s (hybridDt tEval T s).1 (eventStates cbs (s.t + (hybridDt tEval T s).1) x')) 0 0 hk
      (by simp [bisectStart]) h.k1 Relation.ReflTransGen.refl
      ⟨_, hsingle, hnq, by simp [bisectStart]⟩ (Or.inr ⟨_, hstep, hnq, by simp [bisectStart], rfl⟩)
    obtain rfl : b = b' := by
      have := hbis.symm.trans hb1
      cases this
      rfl
    obtain ⟨w1, w2⟩ := bisect_within hs hpers (s.t, s.x) (s.t + (hybridDt tEval T s).1, x') hsingle hnq g1 100
      (bisectStart s (hybridDt tEval T s).1 (eventStates cbs (s.t + (hybridDt tEval T s).1) x'))
      h.k1 g1 (le_refl _) (by simp only [bisectStart]; linarith) Relation.ReflTransGen.refl b hbis
    rcases hr with ⟨hall, -⟩ | ⟨c', cb, hc1', hc2', hev, hr⟩
    · exfalso
      apply hc2
      rw [hc5] at hall
      exact (triggered_quiet cbs c.1 c.2).1 ((triggeredEvents_eq_zero _).2 hall)
    · refine ⟨_, hr, ⟨Or.inl rfl, by simp [afterJump, h.len],
        l ++ [(b.tInner, b.xInner), (b.tInner, cb.jumpMap b.tInner b.xInner)], ?_, ?_, ?_⟩,
        dinv_jump hsort hD b cb w1 w2⟩
      · simp only [houts, afterJump]
        rw [List.zip_append (by simp [h.len]), List.zip_append h.len.symm]
        have : s.evalTimes.zip s.sol = p0 :: l := hl1
        rw [this]
        simp
      · refine located_append hl2 ?_
        rw [hl3]
        exact .jump cb hb2 hc1 hc3 hc4 (firstActive_congr (hev.symm.trans hc5) hc2') (.nil _)
      · simp [lastPoint, afterJump]

/-- **C80 (partial: the whole span is at most 4096 tolerances long, events are persistent).** Then no exception is raised, and
every jump is located to within `event_tol`: nothing is active at the steps leading to the recorded point, and some callback is
active at the end of a step of size at most `event_tol` from it; the callback that jumps is the first one active there.

Missing: the number of bisection steps is limited to 100, so that with smaller tolerances the event may be missed
(`C80_error_refuted`). -/
theorem C80_located_partial (hs : FsalSolver solver args) (f : ℝ → (ι → ℝ) → (ι → ℝ)) (x : ι → ℝ)
    (t0 T : ℝ) (tEval : List ℝ) (hsort : (t0 :: tEval).Pairwise (· ≤ ·))
    (hT : (t0 :: tEval).getLast? = some T) (jSpan : ℕ) (cbs : List (EventCallback ℝ (ι → ℝ)))
    (hpers : Persistent solver args f cbs) (atol rtol eventTol : ℝ) (htol : T - t0 ≤ 4096 * eventTol)
    (jumpFirst : Bool) (sel : Finset ι) (fuel : ℕ) :
    ∃ r, odeintHybrid fuel (pureField f) x (t0 :: tEval) jSpan solver cbs atol rtol eventTol jumpFirst
      sel args = .ok r ∧ ∀ ts xs, r = some (ts, xs) →
      xs.length = ts.length ∧ ∃ x0 l, StartState cbs jumpFirst t0 x x0 ∧ ts.zip xs = (t0, x0) :: l ∧
        LocatedTrace solver args f sel atol rtol eventTol cbs (t0, x0) l := by
  obtain ⟨x0, j, dt, h1, _, _, _, hdt, _, e⟩ := odeintHybrid_loop f x t0 T tEval hT solver cbs atol rtol
    eventTol jumpFirst sel args
  have hsort' := (List.pairwise_cons.1 hsort).2
  have hle : t0 ≤ T := by
    have := List.mem_of_getLast? hT
    rcases List.mem_cons.1 this with h | h
    · exact h.ge
    · exact (List.pairwise_cons.1 hsort).1 T h
  have key : ∀ fuel s, LocInv solver args f sel atol rtol eventTol cbs (t0, x0) s → DInv tEval t0 T s →
      ∃ r, hybridLoop (hybridCfg f solver args atol rtol sel cbs eventTol) tEval T j jSpan fuel s = .ok r ∧
        ∀ s', r = some s' → LocInv solver args f sel atol rtol eventTol cbs (t0, x0) s' := by
    intro fuel
    induction fuel with
    | zero => intro s _ _; exact ⟨none, rfl, by simp⟩
    | succ fuel ih =>
      intro s hL hD
      by_cases hc : s.t < T ∧ j < jSpan
      · obtain ⟨s', g1, g2, g3⟩ := locInv_step hs hpers hsort' (k := 12) (by decide)
          (by norm_num; linarith) hL hD
        obtain ⟨r, g4, g5⟩ := ih s' g2 g3
        refine ⟨r, ?_, g5⟩
        rw [hybridLoop, if_pos hc, g1]
        exact g4
      · refine ⟨some s, by rw [hybridLoop, if_neg hc]; rfl, ?_⟩
        intro s' hs'
        cases hs'
        exact hL
  obtain ⟨r, hr, hr'⟩ := key fuel (hybridInit t0 x0 (f t0 x0) dt) ⟨Or.inr rfl, rfl, [], rfl, .nil _, rfl⟩
    ⟨le_refl _, hle, hdt.le, by simp [hybridInit],
      by simpa [hybridInit] using (List.pairwise_cons.1 hsort).1, by simp [hybridInit], by simp [hybridInit]⟩
  refine ⟨r.map (fun s => (s.evalTimes, s.sol)), by rw [e, hr]; rfl, ?_⟩
  intro ts xs hts
  cases r with
  | none => cases hts
  | some s =>
    cases hts
    obtain ⟨l, hl1, hl2, -⟩ := (hr' s rfl).trace
    exact ⟨(hr' s rfl).len, x0, l, h1, hl1, hl2⟩

/-! ### C34: runs suppressed by `j_span` -/

/-- **C34.** With `j_span = 0`, or with `j_span = 1` after an initial jump, nothing is integrated: the result is the initial
point only, whatever the field. -/
theorem C34_suppressed (f : ℝ → (ι → ℝ) → (ι → ℝ)) (x : ι → ℝ) (t0 : ℝ)
    (tEval : List ℝ) (jSpan : ℕ) (cbs : List (EventCallback ℝ (ι → ℝ))) (atol rtol eventTol : ℝ)
    (jumpFirst : Bool) (sel : Finset ι) (fuel : ℕ) (hfuel : 0 < fuel)
    (hj : jSpan = 0 ∨ jSpan = 1 ∧ jumpFirst = true ∧ ¬ Quiet cbs (t0, x)) :
    ∃ x0, StartState cbs jumpFirst t0 x x0 ∧
      odeintHybrid fuel (pureField f) x (t0 :: tEval) jSpan solver cbs atol rtol eventTol jumpFirst sel args =
        .ok (some ([t0], [x0])) := by
  obtain ⟨T, hT⟩ : ∃ T, (t0 :: tEval).getLast? = some T := ⟨_, List.getLast?_eq_some_getLast (by simp)⟩
  obtain ⟨x0, jn, dt, h0, h1, h2, h3, _, _, e⟩ := odeintHybrid_loop f x t0 T tEval hT solver cbs atol rtol
    eventTol jumpFirst sel args
  refine ⟨x0, h0, ?_⟩
  rw [e]
  obtain ⟨fuel, rfl⟩ : ∃ n, fuel = n + 1 := ⟨fuel - 1, by omega⟩
  have : ¬ jn < jSpan := by
    rcases hj with rfl | ⟨rfl, ha, hb⟩
    · omega
    · have := h3 ha hb; omega
  rw [hybridLoop, if_neg (fun h => this h.2)]
  rfl

/-! ### The limit of 100 bisection steps -/

/-- Shortly before the end of the first step of the witnesses. -/
noncomputable def lateTime : ℝ := 1 / 10 ^ 6 * (1 - 1 / 2 ^ 12 + 1 / 2 ^ 22 + 1 / 2 ^ 30)

open Classical in
/-- Active from `lateTime` on, until it has jumped. -/
noncomputable def late : EventCallback ℝ (Unit → ℝ) :=
  ⟨fun t x => decide (lateTime ≤ t ∧ x () < 1), fun _ x => fun _ => x () + 1⟩

theorem late_active {t : ℝ} (h : lateTime ≤ t) : eventStates [late] t (fun _ => 0) = [true] := by
  simp [eventStates, late, h]

theorem late_quiet {t : ℝ} (h : t < lateTime) : eventStates [late] t (fun _ => 0) = [false] := by
  simp [eventStates, late, not_le.2 h]

/-- The bisection goes down to the first level without event and then starts again with the full step size. -/
theorem late_levels {n : ℕ} {D tol τ : ℝ} {k1 : Option (Unit → ℝ)} {ev : List Bool} (d : ℕ) :
    ∀ i, 0 < D ∧ (k1 = none ∨ k1 = some 0) ∧ lateTime ≤ τ + D / 2 ^ (i + d) → τ + D / 2 ^ (i + d + 1) < lateTime →
      tol < D / 2 ^ (i + d) →
      bisect (wCfg [late] tol) D (n + (d + 1)) ⟨τ, D / 2 ^ i, fun _ => 0, k1, ev⟩ =
        bisect (wCfg [late] tol) D n ⟨τ + D / 2 ^ (i + d + 1), D, fun _ => 0, some 0, [false]⟩ := by
  induction d generalizing ev with
  | zero =>
    rintro i ⟨hD, hk, h1⟩ h2 h3
    rw [zero_add, zero_bisect hk h3]
    have e : D / 2 ^ i / 2 = D / 2 ^ (i + 0 + 1) := by rw [add_zero, pow_succ]; field_simp
    simp only [e]
    rw [late_quiet h2]
    rfl
  | succ d ih =>
    rintro i ⟨hD, hk, h1⟩ h2 h3
    have hmono : ∀ a b : ℕ, a ≤ b → D / 2 ^ b ≤ D / 2 ^ a := by
      intro a b hab
      gcongr
      norm_num
    rw [show n + (d + 1 + 1) = (n + (d + 1)) + 1 by ring]
    rw [zero_bisect hk (lt_of_lt_of_le h3 (hmono i (i + (d + 1)) (by omega)))]
    have e : D / 2 ^ i / 2 = D / 2 ^ (i + 1) := by rw [pow_succ]; field_simp
    simp only [e]
    have hact : lateTime ≤ τ + D / 2 ^ (i + 1) := by
      have := hmono (i + 1) (i + (d + 1)) (by omega)
      linarith
    rw [late_active hact, if_neg (by decide)]
    have h := ih (ev := [true]) (i + 1) ⟨hD, hk, by rwa [show i + 1 + d = i + (d + 1) by ring]⟩
      (by rwa [show i + 1 + d + 1 = i + (d + 1) + 1 by ring]) (by rwa [show i + 1 + d = i + (d + 1) by ring])
    rw [h, show i + 1 + d + 1 = i + (d + 1) + 1 by ring]

theorem late_round {n : ℕ} {D tol τ : ℝ} {k1 : Option (Unit → ℝ)} {ev : List Bool} (d : ℕ)
    (h1 : 0 < D ∧ (k1 = none ∨ k1 = some 0) ∧ lateTime ≤ τ + D / 2 ^ d) (h2 : τ + D / 2 ^ (d + 1) < lateTime)
    (h3 : tol < D / 2 ^ d) :
    bisect (wCfg [late] tol) D (n + (d + 1)) ⟨τ, D, fun _ => 0, k1, ev⟩ =
      bisect (wCfg [late] tol) D n ⟨τ + D / 2 ^ (d + 1), D, fun _ => 0, some 0, [false]⟩ := by
  have h := late_levels (n := n) (tol := tol) (ev := ev) d 0 (by simpa using h1) (by simpa using h2) (by simpa using h3)
  simpa using h

theorem late_persistent : Persistent wSolver () zeroField [late] := by
  have hstep : ∀ p q : Point Unit, AnyStep wSolver () zeroField p q → q.2 = p.2 := by
    rintro p q ⟨k, e, st, h⟩
    obtain ⟨pt, px⟩ := p
    obtain ⟨qt, qx⟩ := q
    simp only at h
    generalize qt - pt = d at h ⊢
    cases h
    simp [zeroField]
  have hreach : ∀ p q : Point Unit,
      Relation.ReflTransGen (fun p q => p.1 ≤ q.1 ∧ AnyStep wSolver () zeroField p q) p q → q.2 = p.2 := by
    intro p q h
    induction h with
    | refl => rfl
    | tail _ h ih => rw [hstep _ _ h.2, ih]
  intro p q r hq hr hle hnq
  have h1 := hreach p q hq
  have h2 := hreach p r hr
  simp only [Quiet, late, List.mem_singleton, forall_eq, decide_eq_false_iff_not, not_not] at hnq ⊢
  rw [h2, ← h1]
  exact ⟨hnq.1.trans hle, hnq.2⟩

/-- **C80 (refutation for small tolerances).** A persistent event seen at the end of the first step is lost by the bisection:
the hundredth step sees no event, and `ValueError` is raised. -/
theorem C80_error_refuted :
    Persistent wSolver () zeroField [late] ∧
    odeintHybrid 1 (pureField zeroField) (fun _ => 0) [0, 1 / 10 ^ 6] 1 wSolver [late]
      (1 / 1000) (1 / 1000) (1 / 10 ^ 13) false Finset.univ () = .error .valueError := by
  refine ⟨late_persistent, ?_⟩
  rw [zero_run [late] _ (1 / 10 ^ 6) [1 / 10 ^ 6] rfl]
  have hb : ∃ b, bisect (wCfg [late] (1 / 10 ^ 13)) (1 / 10 ^ 6) 100
      ⟨0, 1 / 10 ^ 6, fun _ => 0, some 0, [true]⟩ = .ok b ∧ b.events = [false] := by
    rw [late_round (n := 99) 0 (by norm_num [lateTime]) (by norm_num [lateTime]) (by norm_num)]
    rw [late_round (n := 97) 1 (by norm_num [lateTime]) (by norm_num [lateTime]) (by norm_num)]
    rw [late_round (n := 94) 2 (by norm_num [lateTime]) (by norm_num [lateTime]) (by norm_num)]
    rw [late_round (n := 90) 3 (by norm_num [lateTime]) (by norm_num [lateTime]) (by norm_num)]
    rw [late_round (n := 85) 4 (by norm_num [lateTime]) (by norm_num [lateTime]) (by norm_num)]
    rw [late_round (n := 79) 5 (by norm_num [lateTime]) (by norm_num [lateTime]) (by norm_num)]
    rw [late_round (n := 72) 6 (by norm_num [lateTime]) (by norm_num [lateTime]) (by norm_num)]
    rw [late_round (n := 64) 7 (by norm_num [lateTime]) (by norm_num [lateTime]) (by norm_num)]
    rw [late_round (n := 55) 8 (by norm_num [lateTime]) (by norm_num [lateTime]) (by norm_num)]
    rw [late_round (n := 45) 9 (by norm_num [lateTime]) (by norm_num [lateTime]) (by norm_num)]
    rw [late_round (n := 34) 10 (by norm_num [lateTime]) (by norm_num [lateTime]) (by norm_num)]
    rw [late_round (n := 22) 11 (by norm_num [lateTime]) (by norm_num [lateTime]) (by norm_num)]
    rw [late_round (n := 0) 21 (by norm_num [lateTime]) (by norm_num [lateTime]) (by norm_num)]
    exact ⟨_, rfl, rfl⟩
  obtain ⟨b, hb1, hb2⟩ := hb
  have hd : hybridDt [1 / 10 ^ 6] (1 / 10 ^ 6) (hybridInit 0 (fun _ : Unit => (0 : ℝ)) 0 (1 / 10 ^ 6)) =
      (1 / 10 ^ 6, 1 / 10 ^ 6, false, 0) := by norm_num [hybridDt, hybridInit]
  obtain ⟨st, h⟩ := zero_step [late] (1 / 10 ^ 13) 0 (1 / 10 ^ 6) (fun _ => 0) (some 0) (Or.inr rfl)
  have hcb : (wCfg [late] (1 / 10 ^ 13)).callbacks = [late] := rfl
  have hev : eventStates [late] (0 + 1 / 10 ^ 6) (fun _ => 0) = [true] := late_active (by norm_num [lateTime])
  have hit : hybridIter (wCfg [late] (1 / 10 ^ 13)) [1 / 10 ^ 6] (1 / 10 ^ 6)
      (hybridInit 0 (fun _ : Unit => (0 : ℝ)) 0 (1 / 10 ^ 6)) = .error .valueError := by
    simp only [hybridIter, hd]
    simp only [hybridInit, h, bind, Except.bind, StepOut.unpack4, pure, Except.pure, hcb, hev]
    rw [if_pos (by decide)]
    simp only [hybridJump, hb1, bind, Except.bind, hb2]
    rfl
  rw [hybridLoop, if_pos ⟨by norm_num [hybridInit], by norm_num⟩, hit]
  rfl

/-- The hypotheses of `C80_located_partial` are met: the same event with a larger tolerance. -/
example : ∃ r, odeintHybrid 3 (pureField zeroField) (fun _ => 0) [0, 1 / 10 ^ 6] 1 wSolver [late]
    (1 / 1000) (1 / 1000) (1 / 10 ^ 9) false Finset.univ () = .ok r ∧ ∀ ts xs, r = some (ts, xs) →
      xs.length = ts.length ∧ ∃ x0 l, StartState [late] false 0 (fun _ => 0) x0 ∧ ts.zip xs = (0, x0) :: l ∧
        LocatedTrace wSolver () zeroField Finset.univ (1 / 1000) (1 / 1000) (1 / 10 ^ 9) [late] (0, x0) l :=
  C80_located_partial (dopri5_fsalSolver (ι := Unit) ()) zeroField _ 0 (1 / 10 ^ 6) [1 / 10 ^ 6] (by norm_num) rfl 1 [late]
    late_persistent _ _ _ (by norm_num) false _ 3

/-- The hypotheses of `C34_suppressed` are met: an initial jump with `j_span = 1`. -/
example : ∃ x0, StartState [stairs] true 0 (fun _ => 0) x0 ∧
    odeintHybrid 1 (pureField unitSpeed) (fun _ => 0) [0, 1] 1 wSolver [stairs] (1 / 1000) (1 / 1000) (1 / 10 ^ 4) true
      Finset.univ () = .ok (some ([0], [x0])) :=
  C34_suppressed unitSpeed _ 0 [1] 1 [stairs] _ _ _ true _ 1 one_pos
    (Or.inr ⟨rfl, rfl, by simp [Quiet, stairs]⟩)

end Torchdyn
