import Verif.Proofs.FloatTime

/-!
C103: which requested times survive floating-point time arithmetic; and the case in which C15 fails.
-/

set_option linter.unusedSectionVars false
set_option linter.unusedSimpArgs false

namespace Torchdyn

open Spec

section general

variable {K V : Type} [LinearOrder K] [Add K] [Sub K] [One K]

/-- **C103**, sufficient condition in any arithmetic: if `t + (c - t) ≤ c` for all times `t` below a requested time `c` (true
of exact arithmetic and of rounding downwards), then every run without interpolation that returns, returns exactly
`t_span`, with one state per time, whatever the field, the solver and the step sizes. -/
theorem C103_no_overshoot_partial {cfg : AdaptiveCfg (Except PyErr) K V} (hi : cfg.interp = none)
    (hr : cfg.returnAllEval = false) (t0 t1 : K) (rest : List K) (hinc : (t0 :: t1 :: rest).Pairwise (· < ·))
    (hno : ∀ c ∈ t1 :: rest, ∀ t, t < c → t + (c - t) ≤ c) (fuel : ℕ) (k1 x : V) (dt : K) (ts : List K) (xs : List V)
    (h : adaptiveOdeint cfg fuel k1 x dt (t0 :: t1 :: rest) = .ok (some (ts, xs))) :
    ts = t0 :: t1 :: rest ∧ xs.length = ts.length := by
  obtain ⟨T, hT⟩ : ∃ T, (t1 :: rest).getLast? = some T := ⟨_, List.getLast?_eq_some_getLast (by simp)⟩
  obtain ⟨s, hs, rfl, rfl⟩ := adaptiveOdeint_loop hT h
  rw [List.pairwise_cons] at hinc
  obtain ⟨h1, h2⟩ := clockInv_loop hi hr hinc.2 hT (fun _ => True)
    (fun s te _ hinv hte => hno te (List.mem_of_getElem? hte) s.t (hinv.before te hte)) (fun _ _ _ _ _ _ => trivial)
    fuel _ s trivial (clockInv_init k1 x (hinc.1 t1 (by simp))) hs
  exact ⟨h1, by rw [h1, h2]; rfl⟩

end general

/-- The condition holds in exact arithmetic. -/
example : ∀ t c : ℚ, t < c → t + (c - t) ≤ c := fun t c _ => by rw [add_sub_cancel]

section binary

variable {p : ℕ} {V : Type}

/-- Landing on a time that is at most twice the present one is exact. -/
theorem land_exact (hp : 1 ≤ p) {t c : Binary p} (h0 : 0 < t.val) (h1 : t ≤ c) (h2 : c.val ≤ 2 * t.val) :
    (c - t).val = c.val - t.val ∧ t + (c - t) = c := by
  have hd : (c - t).val = c.val - t.val := by
    rw [Binary.sub_val]
    exact roundTo_self hp (t.isBinary.sub c.isBinary h0 h1 h2)
  refine ⟨hd, Binary.ext' ?_⟩
  rw [Binary.add_val, hd, add_sub_cancel]
  exact roundTo_self hp c.isBinary

/-- **C103** for rounding to nearest with any number of bits: on every increasing grid of positive times in which no time is
more than twice the preceding one, every run without interpolation that returns, returns exactly `t_span`, with one state
per time; whatever the field, the solver, the error control and the (nonnegative) step sizes. -/
theorem C103_ratio_partial (hp : 1 ≤ p) {cfg : AdaptiveCfg (Except PyErr) (Binary p) V} (hi : cfg.interp = none)
    (hr : cfg.returnAllEval = false) (hadapt : ∀ d er, 0 ≤ d → 0 ≤ cfg.adapt d er) (t0 t1 : Binary p)
    (rest : List (Binary p)) (h0 : 0 < t0) (hinc : (t0 :: t1 :: rest).Pairwise (· < ·))
    (hratio : (t0 :: t1 :: rest).IsChain (fun a b => b.val ≤ 2 * a.val)) (fuel : ℕ) (k1 x : V) (dt : Binary p)
    (hdt : 0 ≤ dt) (ts : List (Binary p)) (xs : List V)
    (h : adaptiveOdeint cfg fuel k1 x dt (t0 :: t1 :: rest) = .ok (some (ts, xs))) :
    ts = t0 :: t1 :: rest ∧ xs.length = ts.length := by
  obtain ⟨T, hT⟩ : ∃ T, (t1 :: rest).getLast? = some T := ⟨_, List.getLast?_eq_some_getLast (by simp)⟩
  obtain ⟨s, hs, rfl, rfl⟩ := adaptiveOdeint_loop hT h
  have hinc' := (List.pairwise_cons.1 hinc)
  have hzero : IsBinary p 0 := (0 : Binary p).isBinary
  -- consecutive grid points
  have hgrid : ∀ (k : ℕ) (a b : Binary p), (t0 :: t1 :: rest)[k]? = some a → (t1 :: rest)[k]? = some b →
      0 < a.val ∧ b.val ≤ 2 * a.val := by
    intro k a b ha hb
    have hb' : (t0 :: t1 :: rest)[k + 1]? = some b := hb
    obtain ⟨hk, rfl⟩ := List.getElem?_eq_some_iff.1 ha
    obtain ⟨hk', rfl⟩ := List.getElem?_eq_some_iff.1 hb'
    refine ⟨?_, List.isChain_iff_getElem.1 hratio k hk'⟩
    rcases List.mem_cons.1 (List.getElem_mem hk) with h1 | h1
    · rw [h1]; exact h0
    · exact lt_trans h0 (hinc'.1 _ h1)
  obtain ⟨h1, h2⟩ := clockInv_loop hi hr hinc'.2 hT
    (fun s => 0 ≤ s.dt ∧ ∀ a, (t0 :: t1 :: rest)[s.ckpt]? = some a → a ≤ s.t)
    (by
      intro s te hJ hinv hte
      have hck : s.ckpt < (t0 :: t1 :: rest).length := Nat.lt_succ_of_le hinv.le
      have ha := List.getElem?_eq_getElem hck
      obtain ⟨g1, g2⟩ := hgrid _ _ _ ha hte
      have g3 : ((t0 :: t1 :: rest)[s.ckpt]).val ≤ s.t.val := hJ.2 _ ha
      exact (land_exact hp (lt_of_lt_of_le g1 g3) (hinv.before te hte).le (by linarith)).2.le)
    (by
      intro s s' hJ hinv hlt hit
      have hck : s.ckpt < (t1 :: rest).length := by
        rcases lt_or_eq_of_le hinv.le with h1 | h1
        · exact h1
        · exact absurd (hinv.done h1) hlt.ne
      have hte : (t1 :: rest)[s.ckpt]? = some (t1 :: rest)[s.ckpt] := List.getElem?_eq_getElem hck
      set te := (t1 :: rest)[s.ckpt] with hte_def
      have ha : (t0 :: t1 :: rest)[s.ckpt]? = some ((t0 :: t1 :: rest)[s.ckpt]'(Nat.lt_succ_of_le hinv.le)) :=
        List.getElem?_eq_getElem _
      obtain ⟨g1, g2⟩ := hgrid _ _ _ ha hte
      have g3 : ((t0 :: t1 :: rest)[s.ckpt]'(Nat.lt_succ_of_le hinv.le)).val ≤ s.t.val := hJ.2 _ ha
      have hbefore := hinv.before te hte
      obtain ⟨e1, e2⟩ := land_exact hp (lt_of_lt_of_le g1 g3) hbefore.le (show te.val ≤ _ by linarith)
      have hc0 : 0 ≤ clampDt T s := by
        unfold clampDt
        split_ifs
        · show (0 : ℚ) ≤ (T - s.t).val
          rw [Binary.sub_val]
          exact le_roundTo hp hzero (sub_nonneg.2 hlt.le)
        · exact hJ.1
      have grow : ∀ d : Binary p, 0 ≤ d → s.t ≤ s.t + d := by
        intro d hd
        show s.t.val ≤ (s.t + d).val
        rw [Binary.add_val]
        exact le_roundTo hp s.t.isBinary (le_add_of_nonneg_right hd)
      obtain ⟨d, er, hd, -, hcase⟩ := iter_shape hi hr hinv.flag hte hit
      have hd0 : 0 ≤ d ∧ 0 ≤ s'.dt := by
        rcases hd with ⟨f1, rfl, f2⟩ | ⟨f1, rfl, f2⟩
        · have hd0 : 0 ≤ te - s.t := by
            show (0 : ℚ) ≤ (te - s.t).val
            rw [e1]
            exact sub_nonneg.2 hbefore.le
          refine ⟨hd0, ?_⟩
          rw [f2]
          apply hadapt
          show (0 : ℚ) ≤ (clampDt T s - (te - s.t)).val
          rw [Binary.sub_val]
          refine le_roundTo hp hzero ?_
          rw [e1]
          by_contra hcon
          have : (s.t + clampDt T s).val ≤ te.val := by
            rw [Binary.add_val]
            exact roundTo_le hp te.isBinary (by linarith)
          exact absurd f1 (not_lt.2 this)
        · exact ⟨hc0, by rw [f2]; exact hadapt _ _ hc0⟩
      refine ⟨hd0.2, ?_⟩
      rcases hcase with ⟨f1, f2, -, -⟩ | ⟨f1, f5, f2, -, -⟩ | ⟨f1, f5, f2, -, -⟩
      · rw [f1, f2]; exact hJ.2
      · rw [f1, f2, f5]
        intro a ha'
        have : (t0 :: t1 :: rest)[s.ckpt + 1]? = some te := hte
        rw [this] at ha'
        exact (Option.some.inj ha').symm.le
      · rw [f1, f2]
        intro a ha'
        exact (hJ.2 a ha').trans (grow d hd0.1))
    fuel (adaptiveInit k1 x dt t0) s
    ⟨hdt, fun a ha => (Option.some.inj (show some t0 = some a from ha)).symm.le⟩ (clockInv_init k1 x (hinc'.1 t1 (by simp))) hs
  exact ⟨h1, by rw [h1, h2]; rfl⟩

/-- Evaluation of `roundTo` from the position of the argument. -/
theorem roundTo_eval {p : ℕ} {x q : ℚ} {e f : ℤ} (hx : 0 < x) (h1 : 2 ^ e ≤ x) (h2 : x < 2 ^ (e + 1))
    (hq : q = 2 ^ (e - p + 1)) (hf : roundEven (x / q) = f) : roundTo p x = f * q := by
  have hlog : Int.log 2 |x| = e := by
    rw [abs_of_pos hx]
    have hb : (1 : ℕ) < 2 := by norm_num
    apply le_antisymm
    · have := (Int.lt_zpow_iff_log_lt (x := e + 1) hb hx).1 (by exact_mod_cast h2)
      omega
    · exact (Int.zpow_le_iff_le_log hb hx).1 (by exact_mod_cast h1)
  unfold roundTo ulp
  rw [hlog, ← hq, hf]

theorem roundEven_of_frac {x : ℚ} {f : ℤ} (h1 : (f : ℚ) ≤ x) (h2 : x < f + 1) :
    roundEven x = if x - f < 1 / 2 then f else if 1 / 2 < x - f then f + 1 else if f % 2 = 0 then f else f + 1 := by
  have : ⌊x⌋ = f := Int.floor_eq_iff.2 ⟨h1, h2⟩
  unfold roundEven
  simp only [this]

/-- In binary arithmetic with at least two bits, a power of two is hit exactly from every nonnegative time before it. -/
theorem land_power (hp : 2 ≤ p) {t c : Binary p} {k : ℤ} (hc : c.val = 2 ^ k) (h0 : 0 ≤ t.val) (h1 : t < c) :
    t + (c - t) = c := by
  have hp1 : 1 ≤ p := by omega
  have hlt : t.val < 2 ^ k := hc ▸ h1
  set q : ℚ := 2 ^ (k - p) with hq
  have hq0 : 0 < q := zpow_pos (by norm_num) _
  have hck : (2 : ℚ) ^ k = 2 ^ p * q := by
    rw [hq, ← zpow_natCast, ← zpow_add₀ (by norm_num)]
    congr 1
    ring
  -- the rounding error of the difference
  have herr : |(c - t).val - (c.val - t.val)| ≤ q / 2 := by
    rw [Binary.sub_val]
    rcases eq_or_lt_of_le h0 with h0 | h0
    · rw [← h0, sub_zero, roundTo_self hp1 c.isBinary, sub_self, abs_zero]
      linarith
    · have hd : 0 < c.val - t.val := by rw [hc]; linarith
      have hu : ulp p (c.val - t.val) ≤ q := by
        unfold ulp
        rw [hq]
        refine zpow_le_zpow_right₀ (by norm_num) ?_
        have : Int.log 2 |c.val - t.val| < k := by
          rw [abs_of_pos hd]
          refine (Int.lt_zpow_iff_log_lt (by norm_num) hd).1 ?_
          rw [hc]
          push_cast
          linarith
        omega
      have h := mul_le_mul_of_nonneg_right (roundEven_error ((c.val - t.val) / ulp p (c.val - t.val))) (ulp_pos p (c.val - t.val)).le
      have hup := ulp_pos p (c.val - t.val)
      rw [← abs_of_pos hup, ← abs_mul, abs_of_pos hup, sub_mul, div_mul_cancel₀ _ hup.ne'] at h
      refine h.trans ?_
      linarith
  set y := t.val + (c - t).val with hy
  have hy1 : |y - 2 ^ k| ≤ q / 2 := by
    rw [hy, ← hc]
    convert herr using 2
    ring
  obtain ⟨hy2, hy3⟩ := abs_le.1 hy1
  have hbig : 4 * q ≤ 2 ^ k := by
    rw [hck]
    have : (4 : ℚ) ≤ 2 ^ p := by
      calc (4 : ℚ) = 2 ^ 2 := by norm_num
        _ ≤ 2 ^ p := pow_le_pow_right₀ (by norm_num) hp
    nlinarith
  apply Binary.ext'
  rw [Binary.add_val, ← hy, hc]
  rcases le_or_gt (2 ^ k) y with hge | hlt'
  · have h2 : y < 2 ^ (k + 1) := by
      rw [zpow_add_one₀ (by norm_num)]
      linarith
    have hq2 : (2 * q : ℚ) = 2 ^ (k - p + 1) := by
      rw [hq, zpow_add_one₀ (by norm_num)]
      ring
    have hp' : (2 : ℚ) ^ p = 2 * 2 ^ (p - 1) := by
      rw [← pow_succ']
      congr 1
      omega
    have hdiv : ((2 : ℚ) ^ k) / (2 * q) = 2 ^ (p - 1) := by
      rw [hck, hp']
      field_simp
    rw [roundTo_eval (e := k) (f := 2 ^ (p - 1)) (q := 2 * q) (by linarith) hge h2 hq2]
    · push_cast
      rw [hck, hp']
      ring
    · have e1 : (((2 ^ (p - 1) : ℤ)) : ℚ) ≤ y / (2 * q) := by
        push_cast
        rw [← hdiv]
        gcongr
      have e2 : y / (2 * q) - ((2 ^ (p - 1) : ℤ) : ℚ) < 1 / 2 := by
        push_cast
        rw [← hdiv, ← sub_div, div_lt_iff₀ (by linarith)]
        linarith
      rw [roundEven_of_frac e1 (by linarith), if_pos e2]
  · have h1' : (2 : ℚ) ^ (k - 1) ≤ y := by
      rw [zpow_sub_one₀ (by norm_num)]
      linarith
    have hdiv : ((2 : ℚ) ^ k) / q = 2 ^ p := by
      rw [hck]
      field_simp
    rw [roundTo_eval (e := k - 1) (f := 2 ^ p) (q := q) (by linarith) h1' (by rw [sub_add_cancel]; exact hlt')
      (by rw [hq]; congr 1; ring)]
    · push_cast
      rw [hck]
    · have e1 : (((2 ^ p - 1 : ℤ)) : ℚ) + 1 / 2 ≤ y / q := by
        push_cast
        rw [← hdiv]
        rw [← sub_nonneg]
        have : y / q - (2 ^ k / q - 1 + 1 / 2) = (y - 2 ^ k + q / 2) / q := by field_simp; ring
        rw [this]
        exact div_nonneg (by linarith) hq0.le
      have e2 : y / q < ((2 ^ p - 1 : ℤ) : ℚ) + 1 := by
        push_cast
        rw [sub_add_cancel, ← hdiv]
        gcongr
      have hodd : ¬ ((2 ^ p - 1 : ℤ) % 2 = 0) := by
        have : (2 : ℤ) ^ p = 2 * 2 ^ (p - 1) := by
          rw [← pow_succ']
          congr 1
          omega
        omega
      rw [roundEven_of_frac (by linarith) e2, if_neg (by linarith), if_neg hodd, sub_add_cancel, ite_self]

/-- **C103** for an integration over one interval that ends at a power of two (as `[0, 1]` in most examples): with rounding
to nearest and at least two bits, every run that returns, returns both times and both states. -/
theorem C103_power_partial (hp : 2 ≤ p) {cfg : AdaptiveCfg (Except PyErr) (Binary p) V} (hi : cfg.interp = none)
    (hr : cfg.returnAllEval = false) (hadapt : ∀ d er, 0 ≤ d → 0 ≤ cfg.adapt d er) (t0 T : Binary p) {k : ℤ}
    (hT : T.val = 2 ^ k) (h0 : 0 ≤ t0) (h0T : t0 < T) (fuel : ℕ) (k1 x : V) (dt : Binary p)
    (hdt : 0 ≤ dt) (ts : List (Binary p)) (xs : List V)
    (h : adaptiveOdeint cfg fuel k1 x dt [t0, T] = .ok (some (ts, xs))) : ts = [t0, T] ∧ xs.length = 2 := by
  have hzero : IsBinary p 0 := (0 : Binary p).isBinary
  have hp1 : 1 ≤ p := by omega
  obtain ⟨s, hs, rfl, rfl⟩ := adaptiveOdeint_loop (T := T) rfl h
  obtain ⟨h1, h2⟩ := clockInv_loop hi hr (t0 := t0) (List.pairwise_singleton _ T) rfl (fun s => 0 ≤ s.dt ∧ 0 ≤ s.t)
    (by
      intro s te hJ hinv hte
      have hck : s.ckpt = 0 := by
        have := (List.getElem?_eq_some_iff.1 hte).1
        simpa using this
      rw [hck] at hte
      have : te = T := (Option.some.inj hte).symm
      subst this
      exact (land_power hp hT hJ.2 (hinv.before te (by rw [hck]; rfl))).le)
    (by
      intro s s' hJ hinv hlt hit
      have hck : s.ckpt = 0 := by
        have h1 : s.ckpt ≤ 1 := hinv.le
        rcases Nat.lt_or_ge s.ckpt 1 with h2 | h2
        · omega
        · exact absurd (hinv.done (le_antisymm h1 h2)) hlt.ne
      have hland := land_power hp hT hJ.2 hlt
      have hdiff : 0 ≤ T - s.t := by
        show (0 : ℚ) ≤ (T - s.t).val
        rw [Binary.sub_val]
        exact le_roundTo hp1 hzero (sub_nonneg.2 hlt.le)
      obtain ⟨d, er, hd, -, hcase⟩ := iter_shape hi hr hinv.flag (te := T) (by rw [hck]; rfl) hit
      have hc0 : 0 ≤ clampDt T s ∧ s.t + clampDt T s ≤ T := by
        unfold clampDt
        split_ifs with hh
        · exact ⟨hdiff, hland.le⟩
        · exact ⟨hJ.1, not_lt.1 hh⟩
      rcases hd with ⟨f1, -, -⟩ | ⟨f1, rfl, f2⟩
      · exact absurd f1 (not_lt.2 hc0.2)
      · refine ⟨by rw [f2]; exact hadapt _ _ hc0.1, ?_⟩
        have hgrow : 0 ≤ s.t + clampDt T s := by
          show (0 : ℚ) ≤ (s.t + clampDt T s).val
          rw [Binary.add_val]
          exact le_roundTo hp1 hzero (add_nonneg hJ.2 hc0.1)
        rcases hcase with ⟨f1, -⟩ | ⟨f1, -⟩ | ⟨f1, -⟩
        · rw [f1]; exact hJ.2
        · rw [f1]; exact hgrow
        · rw [f1]; exact hgrow)
    fuel _ s ⟨hdt, h0⟩ (clockInv_init k1 x h0T) hs
  exact ⟨h1, h2⟩

/-! ### Where it fails -/

/-- `0.5 + 3·2⁻²⁴`, a `float32` number. -/
def lateStart : Binary 24 := ⟨1 / 2 + 3 / 2 ^ 24, 8388611, -24, by norm_num, by norm_num⟩
/-- `1.75 + 2⁻²³`, a `float32` number. -/
def lateEnd : Binary 24 := ⟨7 / 4 + 1 / 2 ^ 23, 14680065, -23, by norm_num, by norm_num⟩
/-- The next `float32` number after `lateEnd`. -/
def lateEndUp : Binary 24 := ⟨7 / 4 + 2 / 2 ^ 23, 14680066, -23, by norm_num, by norm_num⟩

theorem late_diff : (lateEnd - lateStart).val = 5 / 4 := by
  rw [Binary.sub_val]
  rw [roundTo_eval (e := 0) (f := 10485760) (q := 1 / 2 ^ 23)]
  · norm_num
  · norm_num [lateEnd, lateStart]
  · norm_num [lateEnd, lateStart]
  · norm_num [lateEnd, lateStart]
  · norm_num
  · rw [roundEven_of_frac (f := 10485759)] <;> norm_num [lateEnd, lateStart]

/-- The final step, computed in `float32`, ends one unit in the last place behind the end of the interval. -/
theorem late_overshoot : lateStart + (lateEnd - lateStart) = lateEndUp := by
  apply Binary.ext'
  rw [Binary.add_val, late_diff]
  rw [roundTo_eval (e := 0) (f := 14680066) (q := 1 / 2 ^ 23)]
  · norm_num [lateEndUp]
  · norm_num [lateStart]
  · norm_num [lateStart]
  · norm_num [lateStart]
  · norm_num
  · rw [roundEven_of_frac (f := 14680065)] <;> norm_num [lateStart]

/-- **C103** is false of the code in `float32`: `t_span` has the two positive entries `0.50000018` and `1.7500001`. For
*every* field, solver and error control, if the step size reaches the end of the interval at once and the step is accepted,
the call returns a single time and a single state: the state at the end of the interval, which was computed, is lost, since
`t + dt == t_span[-1]` is false and `t < T` as well. With the interpolator the same call raises `IndexError`. -/
theorem C103_lost_refuted {V : Type} (cfg : AdaptiveCfg (Except PyErr) (Binary 24) V) (hr : cfg.returnAllEval = false)
    (k1 x f' x' e : V) (st : List V) (dt : Binary 24) (hdt : lateEnd < lateStart + dt)
    (hstep : cfg.step x lateStart (lateEnd - lateStart) k1 = .ok (.four f' x' e st)) (hacc : cfg.errRatio x x' e ≤ 1)
    (fuel : ℕ) :
    adaptiveOdeint cfg (fuel + 2) k1 x dt [lateStart, lateEnd] =
      if cfg.interp.isSome then .error .indexError else .ok (some ([lateStart], [x])) := by
  have hlt : lateStart < lateEnd := by
    show (_ : ℚ) < _
    norm_num [lateStart, lateEnd]
  have hup : lateEnd < lateEndUp := by
    show (_ : ℚ) < _
    norm_num [lateEndUp, lateEnd]
  have hclamp : clampDt lateEnd (adaptiveInit k1 x dt lateStart) = lateEnd - lateStart := if_pos hdt
  cases hi : cfg.interp with
  | none =>
    simp [adaptiveOdeint, getItem, adaptiveLoop, adaptiveInit, hlt, adaptiveIter, clampDt, hdt, checkpointDt, hi, late_overshoot,
      hup, hstep, StepOut.unpack4, bind, Except.bind, pure, Except.pure, hacc, acceptStep, interpPhase, hr, hup.ne',
      not_lt.2 hup.le]
  | some dense =>
    simp [adaptiveOdeint, getItem, adaptiveLoop, adaptiveInit, hlt, adaptiveIter, clampDt, hdt, checkpointDt, hi, late_overshoot,
      hup, hstep, StepOut.unpack4, bind, Except.bind, pure, Except.pure, hacc, acceptStep, interpPhase, hr, hup.ne',
      not_lt.2 hup.le, interpCkpts, throw, throwThe, MonadExceptOf.throw]

/-- A stepper for the examples: one Euler step of `x' = 1` on rational states, with error zero. -/
def unitCfg (p : ℕ) (interp : Bool) : AdaptiveCfg (Except PyErr) (Binary p) ℚ where
  step x _ dt _ := .ok (.four 1 (x + dt.val) 0 [])
  errRatio _ _ _ := 0
  adapt d _ := d
  interp := if interp then some (fun _ _ _ _ x _ _ _ => x) else none
  returnAllEval := false

/-- Non-vacuity: the hypotheses of `C103_lost_refuted` are met by `x' = 1` with first step `2`. -/
example : adaptiveOdeint (unitCfg 24 false) 2 1 0 ⟨2, 1, 1, by norm_num, by norm_num⟩ [lateStart, lateEnd] =
    .ok (some ([lateStart], [0])) := by
  have h := C103_lost_refuted (unitCfg 24 false) rfl 1 0 1 (0 + (lateEnd - lateStart).val) 0 []
    ⟨2, 1, 1, by norm_num, by norm_num⟩ (by
      show (_ : ℚ) < _
      rw [Binary.add_val, roundTo_eval (e := 1) (f := 10485761) (q := 1 / 2 ^ 22)]
      · norm_num [lateEnd]
      · norm_num [lateStart]
      · norm_num [lateStart]
      · norm_num [lateStart]
      · norm_num
      · rw [roundEven_of_frac (f := 10485760)] <;> norm_num [lateStart]) rfl
    (show (0 : Binary 24) ≤ 1 from by show (0 : ℚ) ≤ 1; norm_num) 0
  simpa [unitCfg] using h

/-- `1` and `2` with 24 bits. -/
def two24 : Binary 24 := ⟨2, 1, 1, by norm_num, by norm_num⟩

/-- Non-vacuity of `C103_ratio_partial` and `C103_power_partial`: the run on `[1, 2]` with first step 2 returns. -/
example : ∃ xs, adaptiveOdeint (unitCfg 24 false) 2 1 0 two24 [1, two24] = .ok (some ([1, two24], xs)) := by
  have hlt : (1 : Binary 24) < two24 := by show (1 : ℚ) < 2; norm_num
  have hland : (1 : Binary 24) + (two24 - 1) = two24 :=
    (land_exact (by norm_num) (show (0 : ℚ) < 1 by norm_num) hlt.le (show (2 : ℚ) ≤ 2 * 1 by norm_num)).2
  have h01 : (0 : Binary 24) ≤ 1 := by show (0 : ℚ) ≤ 1; norm_num
  have hbig : two24 < 1 + two24 := by
    have h1 : (1 : Binary 24).val = 1 := rfl
    show (2 : ℚ) < _
    rw [Binary.add_val, roundTo_self (by norm_num) ⟨3, 0, by norm_num, by norm_num [two24, h1]⟩]
    norm_num [two24, h1]
  refine ⟨[0, 0 + (two24 - 1).val], ?_⟩
  simp [adaptiveOdeint, getItem, adaptiveLoop, adaptiveInit, hlt, adaptiveIter, clampDt, hbig, checkpointDt, unitCfg, hland,
    StepOut.unpack4, bind, Except.bind, pure, Except.pure, h01, acceptStep, interpPhase]

end binary

/-! ### The fixed-step clock -/

/-- `-128`. -/
def crossStart : Binary 24 := ⟨-128, -1, 7, by norm_num, by norm_num⟩
/-- `2⁻¹⁰ + 2⁻¹⁸`, about `0.00098`. -/
def crossEnd : Binary 24 := ⟨1 / 2 ^ 10 + 1 / 2 ^ 18, 257, -18, by norm_num, by norm_num⟩

/-- The second half of **C15** is false in `float32` for grids that approach zero from a large negative time: on
`t_span = [-128, 0.00098]` the clock ends at `2⁻¹⁰`, which the save-point test (relative tolerance `1e-5`, absolute `1e-8`,
here even doubled) does not recognise. Two times and one state are returned, for every solver. -/
theorem C15_crossing_refuted {V : Type} (isclose : Binary 24 → Binary 24 → Bool) (hself : ∀ a, isclose a a = true)
    (hfar : ∀ a b, 2 / 10 ^ 8 + 2 / 10 ^ 5 * |b.val| < |a.val - b.val| → isclose a b = false)
    (step : V → Binary 24 → Binary 24 → Except PyErr (StepOut V)) (φ : V → Binary 24 → Binary 24 → V)
    (hstep : ∀ x t dt, ∃ k e, step x t dt = .ok (.three k (φ x t dt) e)) (x : V) :
    fixedOdeint isclose step x [crossStart, crossEnd] [] = .ok ([crossStart, crossEnd], [x]) := by
  have hdiff : (crossEnd - crossStart).val = 128 + 1 / 2 ^ 10 := by
    rw [Binary.sub_val, roundTo_eval (e := 7) (f := 8388672) (q := 1 / 2 ^ 16)]
    · norm_num
    · norm_num [crossEnd, crossStart]
    · norm_num [crossEnd, crossStart]
    · norm_num [crossEnd, crossStart]
    · norm_num
    · rw [roundEven_of_frac (f := 8388672)] <;> norm_num [crossEnd, crossStart]
  have hend : (crossStart + (crossEnd - crossStart)).val = 1 / 2 ^ 10 := by
    rw [Binary.add_val, hdiff, roundTo_self (by norm_num) ⟨1, -10, by norm_num, by norm_num [crossStart]⟩]
    norm_num [crossStart]
  have f1 : isclose crossStart crossEnd = false := hfar _ _ (by norm_num [crossStart, crossEnd, abs_of_pos, abs_of_neg])
  have f2 : isclose crossEnd crossStart = false := hfar _ _ (by norm_num [crossStart, crossEnd, abs_of_pos, abs_of_neg])
  have f3 : isclose (crossStart + (crossEnd - crossStart)) crossStart = false :=
    hfar _ _ (by rw [hend]; norm_num [crossStart, abs_of_pos, abs_of_neg])
  have f4 : isclose (crossStart + (crossEnd - crossStart)) crossEnd = false :=
    hfar _ _ (by rw [hend]; norm_num [crossEnd, abs_of_pos, abs_of_neg])
  obtain ⟨k, e, hs⟩ := hstep x crossStart (crossEnd - crossStart)
  simp [fixedOdeint, fixedLoop, closeCount, hself, f1, f2, f3, f4, getItem, hs, StepOut.unpack3, bind, Except.bind, pure,
    Except.pure]

/-- Non-vacuity: the test of the code, evaluated exactly. -/
example : ∃ isclose : Binary 24 → Binary 24 → Bool, (∀ a, isclose a a = true) ∧
    ∀ a b, 2 / 10 ^ 8 + 2 / 10 ^ 5 * |b.val| < |a.val - b.val| → isclose a b = false := by
  refine ⟨fun a b => decide (|a.val - b.val| ≤ 1 / 10 ^ 8 + 1 / 10 ^ 5 * |b.val|), fun a => ?_, fun a b h => ?_⟩
  · simp only [sub_self, abs_zero, decide_eq_true_eq]
    positivity
  · rw [decide_eq_false_iff_not, not_le]
    have := abs_nonneg b.val
    refine lt_of_le_of_lt ?_ h
    nlinarith

end Torchdyn
