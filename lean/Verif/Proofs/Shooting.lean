import Verif.Spec.Shooting
import Verif.Proofs.FixedOdeint

/-!
Lemmas on the shooting loops.
-/

set_option linter.unusedSectionVars false
set_option linter.unusedSimpArgs false

namespace Torchdyn

open Spec

section grid

variable {K V : Type} [Sub K]

theorem gridStates_getLast (φ : V → K → K → V) (x : V) (ts : List K) (h : ts ≠ []) :
    (gridStates φ x ts).getLast? = some (propagate φ x ts) := by
  induction ts generalizing x with
  | nil => exact absurd rfl h
  | cons t ts ih =>
    cases ts with
    | nil => rfl
    | cons t' ts =>
      rw [gridStates, propagate, List.getLast?_cons, ih _ (by simp)]
      rfl

end grid

variable {K V A : Type} [Field K] [LinearOrder K] [IsStrictOrderedRing K] [AddCommGroup V] [Module K V]

theorem tickN_ok (n : ℕ) : tickN (.ok () : Except PyErr Unit) n = .ok () := by
  induction n with
  | zero => rfl
  | succ n ih => rw [tickN, ih]; rfl

theorem endState_eq {W : Type} [AddCommGroup W] [Module K W] (S : SolverFamily (Except PyErr) K A)
    (args : A) (f : K → W → Except PyErr W) (φ : W → K → K → W)
    (h : ∀ x t dt, ∃ k e, (S W).step f x t dt none args = .ok (.three k (φ x t dt) e))
    (x : W) (sub : List K) (h2 : 2 ≤ sub.length) (hsep : Separated sub) :
    endState S args f x sub = .ok (propagate φ x sub) := by
  unfold endState
  rw [fixedOdeint_default _ (.ok ()) φ (fun x t dt => by
    obtain ⟨k, e, h⟩ := h x t dt
    exact ⟨k, e, h⟩) x sub h2 hsep, tickN_ok]
  simp only [bind, Except.bind, pure, Except.pure, getLastItem]
  rw [gridStates_getLast φ x sub (by rintro rfl; simp at h2)]

theorem propagate_stack (φ : V → K → K → V) (n : ℕ) (X : Fin n → V) (sub : List K) :
    propagate (fun (X : Fin n → V) t dt => fun r => φ (X r) t dt) X sub =
      fun r => propagate φ (X r) sub := by
  induction sub generalizing X with
  | nil => rfl
  | cons t ts ih =>
    cases ts with
    | nil => rfl
    | cons t' ts => rw [propagate, ih]; rfl

theorem endStates_eq {S : SolverFamily (Except PyErr) K A} {args : A} {f : K → V → V}
    {φ : V → K → K → V} (hS : Rowwise S args f φ) (rows : List V) (sub : List K)
    (h2 : 2 ≤ sub.length) (hsep : Separated sub) :
    endStates S args (rowField f) rows sub = .ok (rows.map (fun y => propagate φ y sub)) := by
  unfold endStates
  rw [endState_eq S args (rowField f rows.length) _ (hS.stack rows.length) _ sub h2 hsep, propagate_stack]
  simp only [bind, Except.bind, pure, Except.pure]
  congr 1
  apply List.ext_getElem
  · simp
  · intro i h1 h2
    simp

/-! ### MSZero -/

theorem msZeroInner_spec (C G : V → V) (B : List V) (i : ℕ) (hi : 1 ≤ i) (k : ℕ) :
    ∀ (a : ℕ) (bIn : V) (bOut : List V), i ≤ a → a + k = B.length → bOut.length = B.length →
    bOut[a - 1]? = some bIn →
    ∃ bOut', msZeroInner (m := Except PyErr) (fun x => .ok (C x)) ((B.drop (i - 1)).map C)
        ((B.drop (i - 1)).map G) i (List.range' a k) bIn bOut = .ok bOut' ∧
      bOut'.length = B.length ∧ (∀ m < a, bOut'[m]? = bOut[m]?) ∧
      ∀ m, a ≤ m → m < B.length → ∀ p b, bOut'[m - 1]? = some p → B[m - 1]? = some b →
        bOut'[m]? = some (C p - C b + G b) := by
  induction k with
  | zero =>
    intro a bIn bOut _ hlen hout _
    exact ⟨bOut, rfl, hout, fun _ _ => rfl, fun m h1 h2 => by omega⟩
  | succ k ih =>
    intro a bIn bOut hia hlen hout hin
    have hlt : a - 1 < B.length := by omega
    have hg : ∀ F : V → V, ((B.drop (i - 1)).map F)[a - i]? = some (F B[a - 1]) := by
      intro F
      rw [List.getElem?_map, List.getElem?_drop, show i - 1 + (a - i) = a - 1 by omega,
        List.getElem?_eq_getElem hlt]
      rfl
    have hset : a < bOut.length := by omega
    obtain ⟨bOut', e, h1, h2, h3⟩ := ih (a + 1) (C bIn - C B[a - 1] + G B[a - 1])
      (bOut.set a (C bIn - C B[a - 1] + G B[a - 1])) (by omega) (by omega) (by simpa using hout) (by
        rw [show a + 1 - 1 = a by omega, List.getElem?_set_self hset])
    refine ⟨bOut', ?_, h1, ?_, ?_⟩
    · rw [List.range'_succ, msZeroInner]
      simp only [bind, Except.bind, getItem, hg, pure, Except.pure, setItem, if_pos hset]
      exact e
    · intro m hm
      rw [h2 m (by omega), List.getElem?_set_ne (by omega)]
    · intro m ham hmB p b hp hb
      rcases eq_or_lt_of_le ham with rfl | hlt'
      · rw [h2 a (by omega), List.getElem?_set_self hset]
        rw [h2 (a - 1) (by omega), List.getElem?_set_ne (by omega), hin] at hp
        cases hp
        rw [List.getElem?_eq_getElem hlt] at hb
        cases hb
        rfl
      · exact h3 m hlt' hmB p b hp hb

/-- One iteration of parareal (iteration `i + 1`). -/
structure IsParareal (C G : V → V) (i : ℕ) (B B' : List V) : Prop where
  len : B'.length = B.length
  keep : ∀ m ≤ i, B'[m]? = B[m]?
  next : ∀ m, i < m → m < B.length → ∀ p b, B'[m - 1]? = some p → B[m - 1]? = some b →
    B'[m]? = some (C p - C b + G b)

theorem range_map_add (k i : ℕ) : (List.range k).map (· + i) = List.range' i k := by
  rw [List.range'_eq_map_range]
  apply List.map_congr_left
  intro a _
  omega

theorem msZeroLoop_succ (C G : V → V) (B : List V) (i n : ℕ) (hi : i < B.length) :
    ∃ B', IsParareal C G i B B' ∧
      msZeroLoop (m := Except PyErr) (fun x => .ok (C x)) (fun l => .ok (l.map C)) (fun l => .ok (l.map G))
        B.length (n + 1) i B =
      msZeroLoop (fun x => .ok (C x)) (fun l => .ok (l.map C)) (fun l => .ok (l.map G)) B.length n (i + 1)
        B' := by
  have hget : (B.take (i + 1) ++ List.replicate (B.length - (i + 1)) 0)[i]? = some B[i] := by
    rw [List.getElem?_append_left (by simp; omega), List.getElem?_take, if_pos (by omega),
      List.getElem?_eq_getElem hi]
  obtain ⟨B', e, h1, h2, h3⟩ := msZeroInner_spec C G B (i + 1) (by omega) (B.length - (i + 1)) (i + 1)
    B[i] (B.take (i + 1) ++ List.replicate (B.length - (i + 1)) 0) le_rfl (by omega)
    (by simp; omega) hget
  refine ⟨B', ⟨h1, ?_, fun m hm => h3 m hm⟩, ?_⟩
  · intro m hm
    rw [h2 m (by omega), List.getElem?_append_left (by simp; omega), List.getElem?_take, if_pos (by omega)]
  · rw [msZeroLoop]
    simp only [bind, Except.bind, getItem, Nat.add_sub_cancel, List.getElem?_eq_getElem hi, pure,
      Except.pure, range_map_add]
    rw [Nat.add_sub_cancel] at e
    rw [e]

theorem msZeroLoop_fail (C G : V → V) (B : List V) (i n : ℕ) (hi : B.length ≤ i) (N : ℕ) :
    msZeroLoop (m := Except PyErr) (fun x => .ok (C x)) (fun l => .ok (l.map C)) (fun l => .ok (l.map G))
      N (n + 1) i B = .error .indexError := by
  rw [msZeroLoop]
  simp only [bind, Except.bind, getItem, Nat.add_sub_cancel, List.getElem?_eq_none hi]
  rfl

/-- Result of the loop: success as long as the counter stays below the number of rows. -/
theorem msZeroLoop_ok (C G : V → V) (P : ℕ → List V → Prop) (N : ℕ)
    (hP : ∀ i B B', B.length = N → i < N → P i B → IsParareal C G i B B' → P (i + 1) B') (n : ℕ) :
    ∀ i (B : List V), B.length = N → i + n ≤ N → P i B → ∃ B',
      msZeroLoop (m := Except PyErr) (fun x => .ok (C x)) (fun l => .ok (l.map C)) (fun l => .ok (l.map G))
        N n i B = .ok B' ∧ B'.length = N ∧ P (i + n) B' := by
  induction n with
  | zero => intro i B hl _ h; exact ⟨B, rfl, hl, h⟩
  | succ n ih =>
    intro i B hl hin h
    obtain ⟨B1, h1, e⟩ := msZeroLoop_succ C G B i n (by omega)
    rw [hl] at e
    obtain ⟨B', e', h2, h3⟩ := ih (i + 1) B1 (h1.len.trans hl) (by omega) (hP i B B1 hl (by omega) h h1)
    exact ⟨B', by rw [e, e'], h2, by rw [show i + (n + 1) = i + 1 + n by omega]; exact h3⟩

theorem msZeroLoop_error (C G : V → V) (N : ℕ) (n : ℕ) :
    ∀ i (B : List V), B.length = N → N < i + n → i ≤ N →
      msZeroLoop (m := Except PyErr) (fun x => .ok (C x)) (fun l => .ok (l.map C)) (fun l => .ok (l.map G))
        N n i B = .error .indexError := by
  induction n with
  | zero => intro i B _ h1 h2; omega
  | succ n ih =>
    intro i B hl h1 h2
    rcases lt_or_ge i N with hlt | hge
    · obtain ⟨B1, h1', e⟩ := msZeroLoop_succ C G B i n (by omega)
      rw [hl] at e
      rw [e]
      exact ih (i + 1) B1 (h1'.len.trans hl) (by omega) (by omega)
    · exact msZeroLoop_fail C G B i n (by omega) N

theorem linspace0_length (dt : K) (n : ℕ) : (linspace0 dt n).length = n := by simp [linspace0]

/-- `MSZero.root_solve` in terms of the coarse and fine maps. -/
theorem msZero_eq {coarseS fineS : SolverFamily (Except PyErr) K A} {args : A} {f : K → V → V}
    {φc φf : V → K → K → V} (hc : Rowwise coarseS args f φc) (hf : Rowwise fineS args f φf)
    (t0 t1 : K) (rest : List K) (B : List V) (fineSteps maxiter : ℕ) (h2 : 2 ≤ fineSteps)
    (hsep : Separated (linspace0 (t1 - t0) fineSteps)) :
    msZero coarseS fineS args (fun t x => .ok (f t x)) (rowField f) (t0 :: t1 :: rest) B fineSteps maxiter =
      msZeroLoop (fun x => .ok (propagate φc x (linspace0 (t1 - t0) fineSteps)))
        (fun l => .ok (l.map (fun y => propagate φc y (linspace0 (t1 - t0) fineSteps))))
        (fun l => .ok (l.map (fun y => propagate φf y (linspace0 (t1 - t0) fineSteps))))
        (t0 :: t1 :: rest).length (maxiter + 1) 0 B := by
  have hl : 2 ≤ (linspace0 (t1 - t0) fineSteps).length := by rw [linspace0_length]; exact h2
  unfold msZero
  simp only [getItem, List.getElem?_cons_succ, List.getElem?_cons_zero, pure_bind]
  congr 1
  · funext x
    exact endState_eq coarseS args _ _ hc.single x _ hl hsep
  · funext l
    exact endStates_eq hc l _ hl hsep
  · funext l
    exact endStates_eq hf l _ hl hsep

/-! ### MSBackward -/

theorem msBackwardInner_spec (vjp : V → V → V) (B bFine : List V) (i : ℕ) (k : ℕ) :
    ∀ (a : ℕ) (bIn : V) (bOut : List V), 1 ≤ a → a + k = B.length → bOut.length = B.length →
    (∀ m, a ≤ m → m < B.length → m - 1 < bFine.length) → bOut[a - 1]? = some bIn →
    ∃ bOut', msBackwardInner (m := Except PyErr) vjp B bFine i (List.range' a k) bIn bOut = .ok bOut' ∧
      bOut'.length = B.length ∧ (∀ m < a, bOut'[m]? = bOut[m]?) ∧
      ∀ m, a ≤ m → m < B.length → ∀ p b g, bOut'[m - 1]? = some p → B[m - 1]? = some b →
        bFine[m - 1]? = some g →
        bOut'[m]? = some (g + if i - 1 + (m - 1) = m - 1 then vjp b (p - b) else 0) := by
  induction k with
  | zero =>
    intro a bIn bOut _ hlen hout _ _
    exact ⟨bOut, rfl, hout, fun _ _ => rfl, fun m h1 h2 => by omega⟩
  | succ k ih =>
    intro a bIn bOut h1a hlen hout hbf hin
    have hlt : a - 1 < B.length := by omega
    have hlt' : a - 1 < bFine.length := hbf a le_rfl (by omega)
    have hset : a < bOut.length := by omega
    obtain ⟨bOut', e, h1, h2, h3⟩ := ih (a + 1)
      (bFine[a - 1] + if i - 1 + (a - 1) = a - 1 then vjp B[a - 1] (bIn - B[a - 1]) else 0)
      (bOut.set a (bFine[a - 1] + if i - 1 + (a - 1) = a - 1 then vjp B[a - 1] (bIn - B[a - 1]) else 0))
      (by omega) (by omega) (by simpa using hout) (fun m hm => hbf m (by omega)) (by
        rw [show a + 1 - 1 = a by omega, List.getElem?_set_self hset])
    refine ⟨bOut', ?_, h1, ?_, ?_⟩
    · rw [List.range'_succ, msBackwardInner]
      simp only [bind, Except.bind, getItem, List.getElem?_eq_getElem hlt, List.getElem?_eq_getElem hlt', pure,
        Except.pure, setItem, if_pos hset]
      exact e
    · intro m hm
      rw [h2 m (by omega), List.getElem?_set_ne (by omega)]
    · intro m ham hmB p b g hp hb hg
      rcases eq_or_lt_of_le ham with rfl | hlt''
      · rw [h2 a (by omega), List.getElem?_set_self hset]
        rw [h2 (a - 1) (by omega), List.getElem?_set_ne (by omega), hin] at hp
        cases hp
        rw [List.getElem?_eq_getElem hlt] at hb
        cases hb
        rw [List.getElem?_eq_getElem hlt'] at hg
        cases hg
        rfl
      · exact h3 m hlt'' hmB p b g hp hb hg

/-- The inner loop succeeds or raises `IndexError`; it raises when an index is too large. -/
theorem msBackwardInner_outcome (vjp : V → V → V) (B bFine : List V) (i : ℕ) (ms : List ℕ) :
    ∀ (bIn : V) (bOut : List V),
    (∃ r, msBackwardInner (m := Except PyErr) vjp B bFine i ms bIn bOut = .ok r ∧
      r.length = bOut.length ∧ ∀ mm ∈ ms, mm - 1 < bFine.length) ∨
    msBackwardInner (m := Except PyErr) vjp B bFine i ms bIn bOut = .error .indexError := by
  induction ms with
  | nil => intro bIn bOut; exact Or.inl ⟨bOut, rfl, rfl, by simp⟩
  | cons mm ms ih =>
    intro bIn bOut
    rw [msBackwardInner]
    by_cases h1 : mm - 1 < bFine.length
    · by_cases h2 : mm - 1 < B.length
      · simp only [bind, Except.bind, getItem, List.getElem?_eq_getElem h1, List.getElem?_eq_getElem h2, pure,
          Except.pure, setItem]
        by_cases h3 : mm < bOut.length
        · rw [if_pos h3]
          rcases ih (bFine[mm - 1] + if i - 1 + (mm - 1) = mm - 1 then vjp B[mm - 1] (bIn - B[mm - 1]) else 0)
            (bOut.set mm (bFine[mm - 1] + if i - 1 + (mm - 1) = mm - 1 then vjp B[mm - 1] (bIn - B[mm - 1]) else 0))
            with ⟨r, hr, hl, hm⟩ | hr
          · refine Or.inl ⟨r, hr, by simpa using hl, ?_⟩
            intro a ha
            rcases List.mem_cons.1 ha with rfl | ha
            · exact h1
            · exact hm a ha
          · exact Or.inr hr
        · rw [if_neg h3]
          exact Or.inr rfl
      · refine Or.inr ?_
        simp only [bind, Except.bind, getItem, List.getElem?_eq_getElem h1,
          List.getElem?_eq_none (not_lt.1 h2), pure, Except.pure]
        rfl
    · refine Or.inr ?_
      simp only [bind, Except.bind, getItem, List.getElem?_eq_none (not_lt.1 h1)]
      rfl

theorem msBackward_eq {fineS : SolverFamily (Except PyErr) K A} {args : A} {f : K → V → V}
    {φf : V → K → K → V} (hf : Rowwise fineS args f φf) (vjp : List K → V → V → V)
    (t0 t1 : K) (rest : List K) (B : List V) (fineSteps maxiter : ℕ) (h2 : 2 ≤ fineSteps)
    (hsep : Separated (linspace0 (t1 - t0) fineSteps)) :
    msBackward vjp fineS args (rowField f) (t0 :: t1 :: rest) B fineSteps maxiter =
      msBackwardLoop (vjp (linspace0 (t1 - t0) fineSteps))
        (fun l => .ok (l.map (fun y => propagate φf y (linspace0 (t1 - t0) fineSteps))))
        (t0 :: t1 :: rest).length (maxiter + 1) 0 B := by
  have hl : 2 ≤ (linspace0 (t1 - t0) fineSteps).length := by rw [linspace0_length]; exact h2
  unfold msBackward
  simp only [getItem, List.getElem?_cons_succ, List.getElem?_cons_zero, pure_bind]
  congr 1
  funext l
  exact endStates_eq hf l _ hl hsep

/-- One iteration of the outer loop either raises `IndexError` or goes on with as many rows; it raises
`IndexError` when the counter is out of range, or at the third iteration with four rows or more. -/
theorem msBackwardLoop_step (vjp : V → V → V) (G : V → V) (N n i : ℕ) (B : List V) (hl : B.length = N) :
    msBackwardLoop (m := Except PyErr) vjp (fun l => .ok (l.map G)) N (n + 1) i B = .error .indexError ∨
    (i < N ∧ (2 ≤ i → N ≤ i + 1) ∧ ∃ B', B'.length = N ∧
      msBackwardLoop (m := Except PyErr) vjp (fun l => .ok (l.map G)) N (n + 1) i B =
      msBackwardLoop vjp (fun l => .ok (l.map G)) N n (i + 1) B') := by
  rw [msBackwardLoop]
  by_cases hi : i < B.length
  · simp only [bind, Except.bind, getItem, Nat.add_sub_cancel, List.getElem?_eq_getElem hi, pure,
      Except.pure, range_map_add]
    rcases msBackwardInner_outcome vjp B ((B.drop i).map G) (i + 1) (List.range' (i + 1) (N - (i + 1))) B[i]
      (B.take (i + 1) ++ List.replicate (B.length - (i + 1)) 0) with ⟨r, hr, hlen, hm⟩ | hr
    · rw [hr]
      refine Or.inr ⟨by omega, ?_, r, ?_, rfl⟩
      · intro h2
        by_contra hN
        have := hm (N - 1) (List.mem_range'_1.2 ⟨by omega, by omega⟩)
        simp only [List.length_map, List.length_drop] at this
        omega
      · rw [hlen]
        simp only [List.length_append, List.length_take, List.length_replicate]
        omega
    · rw [hr]
      exact Or.inl rfl
  · left
    simp only [bind, Except.bind, getItem, Nat.add_sub_cancel, List.getElem?_eq_none (not_lt.1 hi)]
    rfl

/-- A successful iteration of the outer loop. -/
theorem msBackwardLoop_succ (vjp : V → V → V) (G : V → V) (B : List V) (i n : ℕ) (hi : i < B.length)
    (hi1 : i ≤ 1) :
    ∃ B', B'.length = B.length ∧ (∀ m ≤ i, B'[m]? = B[m]?) ∧
      (∀ m, i < m → m < B.length → ∀ p b g, B'[m - 1]? = some p → B[m - 1]? = some b →
        B[i + (m - 1)]? = some g →
        B'[m]? = some (G g + if i + (m - 1) = m - 1 then vjp b (p - b) else 0)) ∧
      msBackwardLoop (m := Except PyErr) vjp (fun l => .ok (l.map G)) B.length (n + 1) i B =
        msBackwardLoop vjp (fun l => .ok (l.map G)) B.length n (i + 1) B' := by
  have hget : (B.take (i + 1) ++ List.replicate (B.length - (i + 1)) 0)[i]? = some B[i] := by
    rw [List.getElem?_append_left (by simp; omega), List.getElem?_take, if_pos (by omega),
      List.getElem?_eq_getElem hi]
  obtain ⟨B', e, h1, h2, h3⟩ := msBackwardInner_spec vjp B ((B.drop i).map G) (i + 1)
    (B.length - (i + 1)) (i + 1)
    B[i] (B.take (i + 1) ++ List.replicate (B.length - (i + 1)) 0) (by omega) (by omega)
    (by simp; omega) (by intro m _ _; simp; omega) hget
  refine ⟨B', h1, ?_, ?_, ?_⟩
  · intro m hm
    rw [h2 m (by omega), List.getElem?_append_left (by simp; omega), List.getElem?_take, if_pos (by omega)]
  · intro m hm hmB p b g hp hb hg
    have := h3 m (by omega) hmB p b (G g) hp hb (by
      rw [List.getElem?_map, List.getElem?_drop, hg]; rfl)
    rw [this, Nat.add_sub_cancel]
  · rw [msBackwardLoop]
    simp only [bind, Except.bind, getItem, Nat.add_sub_cancel, List.getElem?_eq_getElem hi, pure,
      Except.pure, range_map_add]
    rw [e]

end Torchdyn
