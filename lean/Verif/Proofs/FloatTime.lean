import Verif.Model.FloatTime
import Verif.Model.AdaptiveOdeint
import Verif.Props.FixedNumerics

/-! Lemmas about rounding to `p` bits, and the adaptive loop in an arithmetic that may round. -/

set_option linter.unusedSectionVars false
set_option linter.unusedSimpArgs false

namespace Torchdyn

/-! ### Rounding -/

/-- The integer chosen by `roundEven` is a nearest one. -/
theorem roundEven_nearest (x : ℚ) (n : ℤ) : |(roundEven x : ℚ) - x| ≤ |(n : ℚ) - x| := by
  have h1 := Int.floor_le x
  have h2 := Int.lt_floor_add_one x
  have hn : (n : ℚ) ≤ ⌊x⌋ ∨ (⌊x⌋ : ℚ) + 1 ≤ n := by
    rcases le_or_gt n ⌊x⌋ with h | h
    · left; exact_mod_cast h
    · right; exact_mod_cast h
  unfold roundEven
  simp only
  split_ifs with a b c
  all_goals
    rcases hn with hn | hn
    · rw [abs_of_nonpos (show (n : ℚ) - x ≤ 0 by linarith), abs_le]
      push_cast
      constructor <;> linarith
    · rw [abs_of_nonneg (show 0 ≤ (n : ℚ) - x by linarith), abs_le]
      push_cast
      constructor <;> linarith

theorem roundTo_scaled (p : ℕ) (x : ℚ) (n : ℤ) : |roundTo p x - x| ≤ |n * ulp p x - x| := by
  have hu := ulp_pos p x
  have h := mul_le_mul_of_nonneg_right (roundEven_nearest (x / ulp p x) n) hu.le
  rw [← abs_of_pos hu, ← abs_mul, ← abs_mul, abs_of_pos hu, sub_mul, sub_mul, div_mul_cancel₀ _ hu.ne'] at h
  exact h

/-- `roundTo` chooses a nearest number with `p` bits. -/
theorem roundTo_nearest {p : ℕ} (hp : 1 ≤ p) (x : ℚ) {c : ℚ} (hc : IsBinary p c) : |roundTo p x - x| ≤ |c - x| := by
  obtain ⟨m, e, hm, rfl⟩ := hc
  by_cases hx : x = 0
  · subst hx
    have h0 : roundTo p 0 = 0 := by
      unfold roundTo roundEven
      simp
    rw [h0, sub_zero, abs_zero]
    exact abs_nonneg _
  rcases le_or_gt (Int.log 2 |x| - p + 1) e with he | he
  · have h := roundTo_scaled p x (m * 2 ^ (e - (Int.log 2 |x| - p + 1)).toNat)
    convert h using 3
    unfold ulp
    push_cast
    rw [mul_assoc, ← zpow_natCast, Int.toNat_of_nonneg (by omega), ← zpow_add₀ (by norm_num)]
    congr 2
    ring
  · have hle : |(m : ℚ) * 2 ^ e| ≤ 2 ^ Int.log 2 |x| := by
      rw [abs_mul, abs_of_pos (show (0 : ℚ) < 2 ^ e from zpow_pos (by norm_num) _)]
      have h1 : |(m : ℚ)| ≤ 2 ^ (p : ℤ) := by
        rw [zpow_natCast]
        exact_mod_cast hm
      calc |(m : ℚ)| * 2 ^ e ≤ 2 ^ (p : ℤ) * 2 ^ e :=
            mul_le_mul_of_nonneg_right h1 (zpow_pos (by norm_num) _).le
        _ = 2 ^ ((p : ℤ) + e) := by rw [← zpow_add₀ (by norm_num)]
        _ ≤ 2 ^ Int.log 2 |x| := zpow_le_zpow_right₀ (by norm_num) (by omega)
    have hlog := pow_log_le hx
    have hq : (2 : ℚ) ^ Int.log 2 |x| = ((2 ^ (p - 1) : ℤ) : ℚ) * ulp p x := by
      unfold ulp
      push_cast
      rw [← zpow_natCast, ← zpow_add₀ (by norm_num)]
      congr 1
      push_cast [hp]
      ring
    rcases lt_or_gt_of_ne hx with hneg | hpos
    · have h := roundTo_scaled p x (-2 ^ (p - 1))
      have h2 : ((-2 ^ (p - 1) : ℤ) : ℚ) * ulp p x = -2 ^ Int.log 2 |x| := by
        rw [hq]; push_cast; ring
      rw [h2] at h
      refine h.trans ?_
      rw [abs_of_neg hneg] at hlog hle h2 ⊢
      have h3 := (abs_le.1 hle).1
      rw [abs_of_nonneg (by linarith), abs_of_nonneg (by linarith)]
      linarith
    · have h := roundTo_scaled p x (2 ^ (p - 1))
      rw [← hq] at h
      refine h.trans ?_
      rw [abs_of_pos hpos] at hlog hle ⊢
      have h3 := (abs_le.1 hle).2
      rw [abs_of_nonpos (by linarith), abs_of_nonpos (by linarith)]
      linarith

/-- Numbers with `p` bits are not changed. -/
theorem roundTo_self {p : ℕ} (hp : 1 ≤ p) {c : ℚ} (hc : IsBinary p c) : roundTo p c = c := by
  have h := roundTo_nearest hp c hc
  rw [sub_self, abs_zero] at h
  exact sub_eq_zero.1 (abs_nonpos_iff.1 h)

/-- Rounding does not cross a number with `p` bits. -/
theorem roundTo_le {p : ℕ} (hp : 1 ≤ p) {x c : ℚ} (hc : IsBinary p c) (h : x ≤ c) : roundTo p x ≤ c := by
  by_contra hcon
  have h1 := roundTo_nearest hp x hc
  rw [abs_of_nonneg (show 0 ≤ c - x by linarith), abs_le] at h1
  linarith

theorem le_roundTo {p : ℕ} (hp : 1 ≤ p) {x c : ℚ} (hc : IsBinary p c) (h : c ≤ x) : c ≤ roundTo p x := by
  by_contra hcon
  have h1 := roundTo_nearest hp x hc
  rw [abs_of_nonpos (show c - x ≤ 0 by linarith), abs_le] at h1
  linarith

/-- The relative error of rounding to nearest. -/
theorem roundTo_error (p : ℕ) (x : ℚ) : |roundTo p x - x| ≤ (1 / 2) ^ p * |x| := by
  by_cases hx : x = 0
  · subst hx
    unfold roundTo roundEven
    simp
  have hu := ulp_pos p x
  have h := mul_le_mul_of_nonneg_right (roundEven_error (x / ulp p x)) hu.le
  rw [← abs_of_pos hu, ← abs_mul, abs_of_pos hu, sub_mul, div_mul_cancel₀ _ hu.ne'] at h
  refine h.trans ?_
  have h1 : 1 / 2 * ulp p x = (1 / 2) ^ p * 2 ^ Int.log 2 |x| := by
    unfold ulp
    rw [show Int.log 2 |x| - p + 1 = -(p : ℤ) + (Int.log 2 |x| + 1) by ring, zpow_add₀ (by norm_num),
      zpow_add₀ (by norm_num), zpow_neg, zpow_natCast, one_div, inv_pow, zpow_one]
    ring
  rw [h1]
  exact mul_le_mul_of_nonneg_left (pow_log_le hx) (by positivity)

/-- Sterbenz: differences of numbers within a factor of two are exact. -/
theorem IsBinary.sub {p : ℕ} {a c : ℚ} (ha : IsBinary p a) (hc : IsBinary p c) (h0 : 0 < a) (h1 : a ≤ c) (h2 : c ≤ 2 * a) :
    IsBinary p (c - a) := by
  obtain ⟨m, e, hm, rfl⟩ := ha
  obtain ⟨n, d, hn, rfl⟩ := hc
  have key : ∀ (k : ℤ) (f : ℤ) (M : ℤ), (k : ℚ) * 2 ^ f = n * 2 ^ d - m * 2 ^ e → |M| ≤ 2 ^ p →
      (n : ℚ) * 2 ^ d - m * 2 ^ e ≤ M * 2 ^ f → IsBinary p (n * 2 ^ d - m * 2 ^ e) := by
    intro k f M hk hM hle
    refine ⟨k, f, ?_, hk.symm⟩
    have hf : (0 : ℚ) < 2 ^ f := zpow_pos (by norm_num) _
    have hk0 : (0 : ℚ) ≤ k := by
      by_contra hcon
      have := mul_neg_of_neg_of_pos (not_le.1 hcon) hf
      linarith
    have hkM : (k : ℚ) ≤ M := by
      rw [← hk] at hle
      exact le_of_mul_le_mul_right hle hf
    have hk0' : 0 ≤ k := by exact_mod_cast hk0
    have hkM' : k ≤ M := by exact_mod_cast hkM
    rw [abs_of_nonneg hk0']
    exact hkM'.trans ((le_abs_self M).trans hM)
  rcases le_total e d with he | he
  · refine key (n * 2 ^ (d - e).toNat - m) e m ?_ hm (by linarith)
    push_cast
    rw [sub_mul, mul_assoc, ← zpow_natCast, Int.toNat_of_nonneg (by omega), ← zpow_add₀ (by norm_num)]
    congr 3
    ring
  · refine key (n - m * 2 ^ (e - d).toNat) d n ?_ hn (by linarith)
    push_cast
    rw [sub_mul, mul_assoc, ← zpow_natCast, Int.toNat_of_nonneg (by omega), ← zpow_add₀ (by norm_num)]
    congr 3
    ring

/-- Numbers with `p` bits satisfy the standard model of floating-point arithmetic that C15 assumes. -/
theorem binary_rounded (p : ℕ) : Rounded (Binary p) (fun a => (a.val : ℝ)) ((1 / 2) ^ p) := by
  constructor <;> intro a b
  · have := roundTo_error p (a.val + b.val)
    rw [← Binary.add_val] at this
    have h := (Rat.cast_le (K := ℝ)).2 this
    push_cast at h
    exact h
  · have := roundTo_error p (a.val - b.val)
    rw [← Binary.sub_val] at this
    have h := (Rat.cast_le (K := ℝ)).2 this
    push_cast at h
    exact h

/-! ### The adaptive loop without interpolation, in any arithmetic -/

section loop

variable {K V : Type} [LinearOrder K] [Add K] [Sub K] [One K]

/-- What one iteration does to the clock and to the lists, when a checkpoint is left. -/
theorem iter_shape {cfg : AdaptiveCfg (Except PyErr) K V} (hi : cfg.interp = none) (hr : cfg.returnAllEval = false)
    {tEval : List K} {T te : K} {s s' : AState K V} (hf : s.ckptFlag = false) (hte : tEval[s.ckpt]? = some te)
    (h : adaptiveIter cfg tEval T s = .ok s') :
    ∃ d er, ((te < s.t + clampDt T s ∧ d = te - s.t ∧ s'.dt = cfg.adapt (clampDt T s - d) er) ∨
        (s.t + clampDt T s ≤ te ∧ d = clampDt T s ∧ s'.dt = cfg.adapt d er)) ∧ s'.ckptFlag = false ∧
      ((s'.t = s.t ∧ s'.ckpt = s.ckpt ∧ s'.evalTimes = s.evalTimes ∧ s'.sol = s.sol) ∨
        (s'.t = s.t + d ∧ s.t + d = te ∧ s'.ckpt = s.ckpt + 1 ∧ s'.evalTimes = s.evalTimes ++ [te] ∧
          s'.sol.length = s.sol.length + 1) ∨
        (s'.t = s.t + d ∧ s.t + d ≠ te ∧ s'.ckpt = s.ckpt ∧ s'.evalTimes = s.evalTimes ∧ s'.sol = s.sol)) := by
  unfold adaptiveIter at h
  have hck : checkpointDt cfg.interp.isSome tEval s (clampDt T s) =
      if te < s.t + clampDt T s then (te - s.t, clampDt T s, true) else (clampDt T s, s.dtOld, false) := by
    unfold checkpointDt
    rw [hte, hi, hf]
    rfl
  dsimp only at h
  rw [hck] at h
  have main : ∀ (d dOld : K) (fl : Bool),
      (do
        let (fNew, xNew, xErr, stages) ← (← cfg.step s.x s.t d s.k1).unpack4
        let errorRatio := cfg.errRatio s.x xNew xErr
        let s' ← if errorRatio ≤ 1 then acceptStep cfg tEval s d fNew xNew stages else pure s
        let dt := if fl then dOld - d else d
        pure { s' with dt := cfg.adapt dt errorRatio, dtOld := dOld, ckptFlag := false }) = Except.ok s' →
      ∃ er, s'.dt = cfg.adapt (if fl then dOld - d else d) er ∧ s'.ckptFlag = false ∧
      ((s'.t = s.t ∧ s'.ckpt = s.ckpt ∧ s'.evalTimes = s.evalTimes ∧ s'.sol = s.sol) ∨
        (s'.t = s.t + d ∧ s.t + d = te ∧ s'.ckpt = s.ckpt + 1 ∧ s'.evalTimes = s.evalTimes ++ [te] ∧
          s'.sol.length = s.sol.length + 1) ∨
        (s'.t = s.t + d ∧ s.t + d ≠ te ∧ s'.ckpt = s.ckpt ∧ s'.evalTimes = s.evalTimes ∧ s'.sol = s.sol)) := by
    intro d dOld fl hh
    cases h1 : cfg.step s.x s.t d s.k1 with
    | error e => rw [h1] at hh; cases hh
    | ok out =>
      rw [h1] at hh
      cases out with
      | three => cases hh
      | four fNew xNew xErr stages =>
        simp only [StepOut.unpack4, bind, Except.bind, pure, Except.pure] at hh
        refine ⟨cfg.errRatio s.x xNew xErr, ?_⟩
        by_cases hacc : cfg.errRatio s.x xNew xErr ≤ 1
        · rw [if_pos hacc] at hh
          simp only [acceptStep, interpPhase, hi, hr, getItem, hte, bind, Except.bind, pure, Except.pure] at hh
          have hs := (Except.ok.inj hh).symm
          subst hs
          refine ⟨rfl, rfl, Or.inr ?_⟩
          by_cases hhit : s.t + d = te
          · left
            simp [hhit]
          · right
            simp [hhit]
        · rw [if_neg hacc] at hh
          have hs := (Except.ok.inj hh).symm
          subst hs
          exact ⟨rfl, rfl, Or.inl ⟨rfl, rfl, rfl, rfl⟩⟩
  by_cases hlt : te < s.t + clampDt T s
  · rw [if_pos hlt] at h
    obtain ⟨er, h1, h2, h3⟩ := main _ _ _ h
    exact ⟨_, er, Or.inl ⟨hlt, rfl, h1⟩, h2, h3⟩
  · rw [if_neg hlt] at h
    obtain ⟨er, h1, h2, h3⟩ := main _ _ _ h
    exact ⟨_, er, Or.inr ⟨not_lt.1 hlt, rfl, h1⟩, h2, h3⟩

/-- The invariant of the lists and of the clock. -/
structure ClockInv (t0 : K) (tEval : List K) (T : K) (s : AState K V) : Prop where
  flag : s.ckptFlag = false
  times : s.evalTimes = t0 :: tEval.take s.ckpt
  states : s.sol.length = s.ckpt + 1
  le : s.ckpt ≤ tEval.length
  before : ∀ te, tEval[s.ckpt]? = some te → s.t < te
  done : s.ckpt = tEval.length → s.t = T

/-- As long as no landing on a checkpoint overshoots it, every checkpoint is recorded. `J` is an additional invariant. -/
theorem clockInv_loop {cfg : AdaptiveCfg (Except PyErr) K V} (hi : cfg.interp = none) (hr : cfg.returnAllEval = false)
    {t0 : K} {tEval : List K} {T : K} (hinc : tEval.Pairwise (· < ·)) (hT : tEval.getLast? = some T)
    (J : AState K V → Prop)
    (hno : ∀ s te, J s → ClockInv t0 tEval T s → tEval[s.ckpt]? = some te → s.t + (te - s.t) ≤ te)
    (hJ : ∀ s s', J s → ClockInv t0 tEval T s → s.t < T → adaptiveIter cfg tEval T s = .ok s' → J s') (fuel : ℕ) :
    ∀ s s', J s → ClockInv t0 tEval T s → adaptiveLoop cfg tEval T fuel s = .ok (some s') →
      s'.evalTimes = t0 :: tEval ∧ s'.sol.length = tEval.length + 1 := by
  induction fuel with
  | zero =>
    intro s s' _ _ h
    have := Except.ok.inj h
    cases this
  | succ fuel ih =>
    intro s s' hs hinv h
    unfold adaptiveLoop at h
    by_cases hlt : s.t < T
    · rw [if_pos hlt] at h
      cases hit : adaptiveIter cfg tEval T s with
      | error e => rw [hit] at h; cases h
      | ok s1 =>
        rw [hit] at h
        refine ih s1 s' (hJ s s1 hs hinv hlt hit) ?_ h
        have hck : s.ckpt < tEval.length := by
          rcases lt_or_eq_of_le hinv.le with h1 | h1
          · exact h1
          · exact absurd (hinv.done h1) hlt.ne
        have hte : tEval[s.ckpt]? = some tEval[s.ckpt] := List.getElem?_eq_getElem hck
        obtain ⟨d, er, hd, hflag, hcase⟩ := iter_shape hi hr hinv.flag hte hit
        have hland : s.t + d ≤ tEval[s.ckpt] := by
          rcases hd with ⟨-, rfl, -⟩ | ⟨h1, rfl, -⟩
          · exact hno s _ hs hinv hte
          · exact h1
        rcases hcase with ⟨h1, h2, h3, h4⟩ | ⟨h1, h5, h2, h3, h4⟩ | ⟨h1, h5, h2, h3, h4⟩
        · exact ⟨hflag, by rw [h3, h2, hinv.times], by rw [h4, h2, hinv.states], by rw [h2]; exact hinv.le,
            by rw [h2, h1]; exact hinv.before, by rw [h2, h1]; exact hinv.done⟩
        · refine ⟨hflag, ?_, by rw [h4, h2, hinv.states], by rw [h2]; exact hck, ?_, ?_⟩
          · rw [h3, h2, hinv.times, List.take_add_one, hte]
            rfl
          · rw [h2, h1, h5]
            intro te' hte'
            obtain ⟨hlt', rfl⟩ := List.getElem?_eq_some_iff.1 hte'
            exact List.pairwise_iff_getElem.1 hinc _ _ hck hlt' (Nat.lt_succ_self _)
          · rw [h2, h1, h5]
            intro hlen
            rw [List.getLast?_eq_getElem?, ← hlen, Nat.add_sub_cancel, hte] at hT
            exact Option.some.inj hT
        · refine ⟨hflag, by rw [h3, h2, hinv.times], by rw [h4, h2, hinv.states], by rw [h2]; exact hinv.le, ?_, ?_⟩
          · rw [h2, h1, hte]
            intro te' hte'
            cases hte'
            exact lt_of_le_of_ne hland h5
          · rw [h2]
            intro hlen
            omega
    · rw [if_neg hlt] at h
      have hss := Option.some.inj (Except.ok.inj h)
      subst hss
      have hck : s.ckpt = tEval.length := by
        by_contra hne
        have hck : s.ckpt < tEval.length := lt_of_le_of_ne hinv.le hne
        have h1 := hinv.before _ (List.getElem?_eq_getElem hck)
        have h2 : tEval[s.ckpt] ≤ T := by
          rw [List.getLast?_eq_getElem?] at hT
          obtain ⟨h3, rfl⟩ := List.getElem?_eq_some_iff.1 hT
          rcases Nat.lt_or_ge s.ckpt (tEval.length - 1) with h4 | h4
          · exact (List.pairwise_iff_getElem.1 hinc _ _ hck h3 h4).le
          · have h5 : s.ckpt = tEval.length - 1 := by omega
            simp only [h5, le_refl]
        exact hlt (lt_of_lt_of_le h1 h2)
      exact ⟨by rw [hinv.times, hck, List.take_length], by rw [hinv.states, hck]⟩

theorem clockInv_init {t0 t1 T dt : K} {rest : List K} (k1 x : V) (h01 : t0 < t1) :
    ClockInv t0 (t1 :: rest) T (adaptiveInit k1 x dt t0) := by
  refine ⟨rfl, rfl, rfl, Nat.zero_le _, ?_, ?_⟩
  · intro te hte
    cases hte
    exact h01
  · intro h
    cases h

/-- `_adaptive_odeint` on two points or more is the loop. -/
theorem adaptiveOdeint_loop {cfg : AdaptiveCfg (Except PyErr) K V} {fuel : ℕ} {k1 x : V} {dt t0 t1 T : K} {rest : List K}
    (hT : (t1 :: rest).getLast? = some T) {ts : List K} {xs : List V}
    (h : adaptiveOdeint cfg fuel k1 x dt (t0 :: t1 :: rest) = .ok (some (ts, xs))) :
    ∃ s, adaptiveLoop cfg (t1 :: rest) T fuel (adaptiveInit k1 x dt t0) = .ok (some s) ∧ s.evalTimes = ts ∧ s.sol = xs := by
  have hlast : getItem (m := Except PyErr) (t0 :: t1 :: rest) ((t0 :: t1 :: rest).length - 1) = .ok T := by
    have h1 : (t0 :: t1 :: rest)[(t0 :: t1 :: rest).length - 1]? = some T := by
      rw [← List.getLast?_eq_getElem?, ← hT]
      simp [List.getLast?_cons]
    unfold getItem
    rw [h1]
    rfl
  unfold adaptiveOdeint at h
  rw [hlast] at h
  simp only [getItem, List.getElem?_cons_zero, bind, Except.bind, pure, Except.pure, List.drop_succ_cons,
    List.drop_zero] at h
  cases hl : adaptiveLoop cfg (t1 :: rest) T fuel (adaptiveInit k1 x dt t0) with
  | error e => rw [hl] at h; cases h
  | ok o =>
    rw [hl] at h
    cases o with
    | none => cases Except.ok.inj h
    | some s =>
      have h2 := Option.some.inj (Except.ok.inj h)
      exact ⟨s, rfl, congrArg Prod.fst h2, congrArg Prod.snd h2⟩

end loop

end Torchdyn
