import Verif.Model.OdeRnn
import Mathlib.Tactic.Common

/-!
C70: `HybridNeuralDE` (ODE-RNN).
-/

namespace Torchdyn

variable {X H O : Type}

private theorem loop_length (M : HybridNeuralDE X H O) (xs : List X) (h c : H) : (M.loop xs h c).length = xs.length := by
  induction xs generalizing h c with
  | nil => rfl
  | cons x xs ih => simp [HybridNeuralDE.loop, ih]

private theorem loop_append (M : HybridNeuralDE X H O) (xs ys : List X) (h c : H) :
    ∃ tail, M.loop (xs ++ ys) h c = M.loop xs h c ++ tail := by
  induction xs generalizing h c with
  | nil => exact ⟨_, rfl⟩
  | cons x xs ih =>
    obtain ⟨tail, ht⟩ := ih (M.flow (M.jump.apply x h c).1) (M.jump.apply x h c).2
    exact ⟨tail, by simp [HybridNeuralDE.loop, ht]⟩

/-- The hidden states `hs` (and cell states `cs`) of an ODE-RNN on `xs` from `(h, c)`: at every position, the state before is
updated with the input by the jump and then moved by the flow; the cell state is kept by a plain cell. -/
structure IsRnnRun (flow : H → H) (jump : Jump X H) (h₀ : H) (xs : List X) (hs cs : List H) : Prop where
  length_hidden : hs.length = xs.length
  length_cell : cs.length = xs.length
  step : ∀ (t : Nat) (x : X) (h c : H), xs[t]? = some x → (h₀ :: hs)[t]? = some h → (h₀ :: cs)[t]? = some c →
    match jump with
    | .cell j => hs[t]? = some (flow (j x h)) ∧ cs[t]? = some c
    | .lstm j => hs[t]? = some (flow (j x (h, c)).1) ∧ cs[t]? = some (j x (h, c)).2

private theorem loop_run (M : HybridNeuralDE X H O) (xs : List X) : ∀ (h c : H), ∃ cs : List H,
    cs.length = xs.length ∧ ∀ (t : Nat) (x : X) (h' c' : H), xs[t]? = some x → (h :: M.loop xs h c)[t]? = some h' →
      (c :: cs)[t]? = some c' →
      match M.jump with
      | .cell j => (M.loop xs h c)[t]? = some (M.flow (j x h')) ∧ cs[t]? = some c'
      | .lstm j => (M.loop xs h c)[t]? = some (M.flow (j x (h', c')).1) ∧ cs[t]? = some (j x (h', c')).2 := by
  induction xs with
  | nil => intro h c; exact ⟨[], rfl, by intro t x h' c' hx; simp at hx⟩
  | cons a xs ih =>
    intro h c
    obtain ⟨cs, hl, hcs⟩ := ih (M.flow (M.jump.apply a h c).1) (M.jump.apply a h c).2
    refine ⟨(M.jump.apply a h c).2 :: cs, by simp [hl], ?_⟩
    intro t x h' c' hx hh hc
    cases t with
    | zero =>
      simp only [List.getElem?_cons_zero, Option.some.injEq] at hx hh hc
      subst hx; subst hh; subst hc
      cases hj : M.jump with
      | cell j => simp [HybridNeuralDE.loop, hj, Jump.apply]
      | lstm j => simp [HybridNeuralDE.loop, hj, Jump.apply]
    | succ t =>
      have := hcs t x h' c' (by simpa using hx) (by simpa [HybridNeuralDE.loop] using hh) (by simpa using hc)
      cases hj : M.jump with
      | cell j => rw [hj] at this; simpa [HybridNeuralDE.loop, hj] using this
      | lstm j => rw [hj] at this; simpa [HybridNeuralDE.loop, hj] using this

/-- **C70**, what is computed: without `reverse`, the whole output is `out` of the hidden states of the ODE-RNN started at
zero, for every nonempty sequence, jump and flow. -/
theorem C70_run (M : HybridNeuralDE X H O) (hr : M.reverse = false) (hl : M.lastOutput = false) (xs : List X)
    (hx : xs ≠ []) : ∃ hs cs, IsRnnRun M.flow M.jump M.zero xs hs cs ∧ M.forward xs = .ok (.inl (M.out hs)) := by
  obtain ⟨cs, hl', hcs⟩ := loop_run M xs M.zero M.zero
  obtain ⟨a, xs', rfl⟩ := List.exists_cons_of_ne_nil hx
  exact ⟨_, cs, ⟨loop_length M _ _ _, hl', hcs⟩, by
    simp [HybridNeuralDE.forward, getItem, hr, hl, bind, Except.bind, pure, Except.pure]⟩

/-- **C70**, causality: when the read-out acts entry by entry, the outputs on a sequence are the first outputs on every
continuation of it. -/
theorem C70_causal (M : HybridNeuralDE X H O) (hr : M.reverse = false) (hl : M.lastOutput = false) (g : H → O)
    (hout : ∀ hs, M.out hs = hs.map g) (xs ys : List X) (hx : xs ≠ []) :
    ∃ Y tail, M.forward xs = .ok (.inl Y) ∧ Y.length = xs.length ∧ M.forward (xs ++ ys) = .ok (.inl (Y ++ tail)) := by
  obtain ⟨tail, ht⟩ := loop_append M xs ys M.zero M.zero
  obtain ⟨a, xs', rfl⟩ := List.exists_cons_of_ne_nil hx
  refine ⟨(M.loop (a :: xs') M.zero M.zero).map g, tail.map g, ?_, by simp [loop_length], ?_⟩
  · simp [HybridNeuralDE.forward, getItem, hr, hl, hout, bind, Except.bind, pure, Except.pure]
  · rw [← List.map_append, ← ht]
    simp [HybridNeuralDE.forward, getItem, hr, hl, hout, bind, Except.bind, pure, Except.pure]

/-- **C70**: with `last_output` the result is the last entry of what is returned without it. -/
theorem C70_last (M : HybridNeuralDE X H O) (hr : M.reverse = false) (xs : List X) (hx : xs ≠ [])
    (hout : ∀ hs, hs ≠ [] → M.out hs ≠ []) :
    ∃ Y y, { M with lastOutput := false }.forward xs = .ok (.inl Y) ∧ Y.getLast? = some y ∧
      { M with lastOutput := true }.forward xs = .ok (.inr y) := by
  obtain ⟨a, xs', rfl⟩ := List.exists_cons_of_ne_nil hx
  have hM : ∀ b, ({ M with lastOutput := b } : HybridNeuralDE X H O).loop (a :: xs') M.zero M.zero =
      M.loop (a :: xs') M.zero M.zero := by
    intro b
    have : ∀ (xs : List X) (h c : H), ({ M with lastOutput := b } : HybridNeuralDE X H O).loop xs h c = M.loop xs h c := by
      intro xs
      induction xs with
      | nil => intro h c; rfl
      | cons x xs ih => intro h c; simp [HybridNeuralDE.loop, ih]
    exact this _ _ _
  have hne : M.out (M.loop (a :: xs') M.zero M.zero) ≠ [] := hout _ (by simp [HybridNeuralDE.loop])
  obtain ⟨y, hy⟩ : ∃ y, (M.out (M.loop (a :: xs') M.zero M.zero)).getLast? = some y := by
    cases h : (M.out (M.loop (a :: xs') M.zero M.zero)).getLast? with
    | none => exact absurd (List.getLast?_eq_none_iff.mp h) hne
    | some y => exact ⟨y, rfl⟩
  simp only [hr] at hM
  refine ⟨_, y, ?_, hy, ?_⟩
  · simp [HybridNeuralDE.forward, getItem, hr, hM, bind, Except.bind, pure, Except.pure]
  · simp [HybridNeuralDE.forward, getItem, hr, hM, bind, Except.bind, pure, Except.pure, getLastItem, hy]

/-- Non-vacuity: a cell that adds the input, a flow that doubles. -/
example : (HybridNeuralDE.mk (2 * ·) (.cell (· + ·)) (List.map (· + 1)) false false 0 : HybridNeuralDE Nat Nat Nat).forward
    [1, 2, 3] = .ok (.inl [3, 9, 23]) := by rfl

/-- Non-vacuity: an LSTM, whose cell state counts the inputs and is part of the hidden state. -/
example : (HybridNeuralDE.mk (2 * ·) (.lstm (fun x hc => (x + hc.1 + hc.2, hc.2 + 1))) id true false 0 :
    HybridNeuralDE Nat Nat Nat).forward [1, 2, 3] = .ok (.inr 30) := by rfl

/-- C70 is false of the code for `reverse`: with `reverse=True` every call on a nonempty sequence raises
`UnboundLocalError`. -/
theorem C70_reverse_refuted (M : HybridNeuralDE X H O) (hr : M.reverse = true) (xs : List X) (hx : xs ≠ []) :
    M.forward xs = .error .unboundLocalError := by
  obtain ⟨a, xs', rfl⟩ := List.exists_cons_of_ne_nil hx
  simp [HybridNeuralDE.forward, getItem, hr, bind, Except.bind, pure, Except.pure, throw, throwThe, MonadExceptOf.throw]

end Torchdyn
