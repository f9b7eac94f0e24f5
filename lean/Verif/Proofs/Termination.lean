import Verif.Proofs.AdaptiveApi
import Mathlib.Algebra.Order.Archimedean.Basic

/-! Termination of the adaptive loop. -/

set_option linter.unusedSectionVars false

namespace Torchdyn

open Spec

/-- An abstract argument: `n` targets remain, the next one at distance `gap`, the current step size
is `h`. Steps of size at most `δ` succeed and then the step size grows by a factor in `[1, C]`;
failed steps shrink it by `σ < 1`. Every run ends. -/
theorem terminates_abstract {S : Type} (inv P : S → Prop) (n : S → ℕ) (gap h : S → ℝ) (δ σ C : ℝ)
    (hδ : 0 < δ) (hσ0 : 0 < σ) (hσ : σ < 1) (hC : 1 ≤ C) (hpos : ∀ s, inv s → 0 < h s)
    (hstep : ∀ s, inv s → P s ∨ (0 < gap s ∧ ∃ s', inv s' ∧ (P s' → P s) ∧
      (n s' < n s ∨
        (n s' = n s ∧ gap s' ≤ gap s - h s ∧ (h s ≤ δ → h s ≤ h s' ∧ h s' ≤ C * h s)) ∨
        (n s' = n s ∧ gap s' ≤ gap s ∧ δ < h s ∧ h s' ≤ σ * h s)))) :
    ∀ s, inv s → P s := by
  have hC0 : 0 < C := lt_of_lt_of_le one_pos hC
  have hδC : δ / C ≤ δ := div_le_self hδ.le hC
  suffices H : ∀ N s, n s = N → inv s → P s from fun s => H _ s rfl
  intro N
  induction N using Nat.strong_induction_on with
  | _ N ihN =>
    suffices H : ∀ (m : ℕ) s, n s = N → inv s → gap s ≤ m * (δ / C) → P s by
      intro s hn hi
      obtain ⟨m, hm⟩ := exists_nat_ge (gap s / (δ / C))
      refine H m s hn hi ?_
      rwa [div_le_iff₀ (div_pos hδ hC0)] at hm
    intro m
    induction m with
    | zero =>
      intro s hn hi hg
      rcases hstep s hi with h | ⟨h, _⟩
      · exact h
      · simp at hg; linarith
    | succ m ihm =>
      have phaseB : ∀ (q : ℕ) (η : ℝ), 0 < η → ∀ s, n s = N → inv s →
          gap s ≤ ((m : ℝ) + 1) * (δ / C) → h s ≤ δ → η ≤ h s → gap s ≤ q * η → P s := by
        intro q η hη
        induction q with
        | zero =>
          intro s hn hi _ _ _ hg
          rcases hstep s hi with h | ⟨h, _⟩
          · exact h
          · simp at hg; linarith
        | succ q ihq =>
          intro s hn hi hg hhd hηh hgq
          rcases hstep s hi with h | ⟨_, s', hi', hPP, h1 | ⟨h1, h2, h3⟩ | ⟨_, _, h3, _⟩⟩
          · exact h
          · exact hPP (ihN _ (hn ▸ h1) s' rfl hi')
          · obtain ⟨h3a, h3b⟩ := h3 hhd
            apply hPP
            by_cases hbig : δ / C < h s
            · exact ihm s' (h1.trans hn) hi' (by linarith)
            · rw [not_lt] at hbig
              refine ihq s' (h1.trans hn) hi' ?_ ?_ (hηh.trans h3a) ?_
              · have := hpos s hi; linarith
              · rw [le_div_iff₀ hC0] at hbig; linarith
              · push_cast at hgq; linarith
          · exact absurd h3 (not_lt.2 hhd)
      have small : ∀ s, n s = N → inv s → gap s ≤ ((m : ℝ) + 1) * (δ / C) → h s ≤ δ → P s := by
        intro s hn hi hg hh
        obtain ⟨q, hq⟩ := exists_nat_ge (gap s / h s)
        refine phaseB q (h s) (hpos s hi) s hn hi hg hh (le_refl _) ?_
        rwa [div_le_iff₀ (hpos s hi)] at hq
      have phaseA : ∀ (p : ℕ) s, n s = N → inv s → gap s ≤ ((m : ℝ) + 1) * (δ / C) →
          σ ^ p * h s ≤ δ → P s := by
        intro p
        induction p with
        | zero => intro s hn hi hg hh; exact small s hn hi hg (by simpa using hh)
        | succ p ihp =>
          intro s hn hi hg hh
          by_cases hsm : h s ≤ δ
          · exact small s hn hi hg hsm
          rw [not_le] at hsm
          rcases hstep s hi with h | ⟨_, s', hi', hPP, h1 | ⟨h1, h2, _⟩ | ⟨h1, h2, _, h4⟩⟩
          · exact h
          · exact hPP (ihN _ (hn ▸ h1) s' rfl hi')
          · exact hPP (ihm s' (h1.trans hn) hi' (by linarith))
          · refine hPP (ihp s' (h1.trans hn) hi' (h2.trans hg) ?_)
            have : σ ^ p * h s' ≤ σ ^ p * (σ * h s) :=
              mul_le_mul_of_nonneg_left h4 (pow_nonneg hσ0.le p)
            refine this.trans (le_trans (le_of_eq ?_) hh)
            ring
      intro s hn hi hg
      push_cast at hg
      obtain ⟨p, hp⟩ := exists_pow_lt_of_lt_one (div_pos hδ (hpos s hi)) hσ
      refine phaseA p s hn hi hg ?_
      rw [lt_div_iff₀ (hpos s hi)] at hp
      exact hp.le

variable {V : Type}

/-- The loop ends when small steps have error ratio below 1. `Good` is an invariant of state,
time and stored derivative `k1`. -/
theorem adaptiveLoop_terminates {cfg : AdaptiveCfg (Except PyErr) ℝ V}
    {out : V → ℝ → ℝ → V → V × V × V × List V} (hout : FourStep cfg out)
    {δ σ C : ℝ} (hδ : 0 < δ) (hσ0 : 0 < σ) (hσ : σ < 1) (hC : 1 ≤ C)
    (hadapt : ∀ dt er, 0 < dt → 0 < cfg.adapt dt er)
    (hgrow : ∀ dt er, 0 < dt → er < 1 → dt ≤ cfg.adapt dt er ∧ cfg.adapt dt er ≤ C * dt)
    (hshrink : ∀ dt er, 0 < dt → 1 < er → cfg.adapt dt er ≤ σ * dt)
    {tEval : List ℝ} {t0 T : ℝ}
    (Good : V → ℝ → V → Prop) (hgood : ∀ x t dt k1, Good x t k1 → t0 ≤ t → 0 < dt → t + dt ≤ T →
      (cfg.interp = none → ∀ b ∈ tEval, t < b → t + dt ≤ b) → Good (out x t dt k1).2.1 (t + dt) (out x t dt k1).1)
    (hsmall : ∀ x t dt k1, Good x t k1 → t0 ≤ t → t ≤ T → 0 < dt → dt ≤ δ →
      cfg.errRatio x (out x t dt k1).2.1 (out x t dt k1).2.2.1 < 1)
    (hsort : tEval.Pairwise (· < ·)) (hT : tEval.getLast? = some T)
    (s : AState ℝ V) (hinv : AInv tEval t0 T s) (hk : Good s.x s.t s.k1) :
    ∃ fuel r, adaptiveLoop cfg tEval T fuel s = .ok (some r) := by
  have hTmem : T ∈ tEval := List.mem_of_getLast? hT
  have key := terminates_abstract (S := AState ℝ V) (fun s => AInv tEval t0 T s ∧ Good s.x s.t s.k1)
    (fun s => ∃ fuel r, adaptiveLoop cfg tEval T fuel s = .ok (some r))
    (fun s => if cfg.interp.isSome then (if s.t < T then 1 else 0) else tEval.length - s.ckpt)
    (fun s => if cfg.interp.isSome then T - s.t else tEval.getD s.ckpt 0 - s.t)
    (fun s => s.dt) δ σ C hδ hσ0 hσ hC (fun s hs => hs.1.dt_pos) ?_
  · exact key s ⟨hinv, hk⟩
  intro s ⟨hinv, hk⟩
  by_cases ht : s.t < T
  swap
  · left
    exact ⟨1, s, by rw [adaptiveLoop, if_neg ht]; rfl⟩
  right
  obtain ⟨dt, s', h1, h2, h3, dt', hdt', hs'dt, hcase, hint⟩ :=
    adaptiveIter_spec hout hadapt hsort hT hinv ht
  obtain ⟨hc1, hc2, hc3⟩ := clampDt_spec hinv.dt_pos ht
  have hdt'le : dt' ≤ s.dt := by
    rcases hcase with ⟨a, b⟩ | ⟨_, b, c, _⟩
    · rw [a, b]; exact hc3
    · have := h2.dt_pos; linarith
  -- the next checkpoint
  have hck : s.ckpt < tEval.length := by
    by_contra hcon
    rw [not_lt] at hcon
    have := hinv.past T (by rw [List.take_of_length_le hcon]; exact hTmem)
    linarith
  have hget : tEval.getD s.ckpt 0 ∈ tEval.drop s.ckpt := by
    rw [List.getD_eq_getElem?_getD, List.getElem?_eq_getElem hck, Option.getD_some,
      List.drop_eq_getElem_cons hck]
    exact List.mem_cons_self
  have hgap : 0 < (if cfg.interp.isSome then T - s.t else tEval.getD s.ckpt 0 - s.t) := by
    split_ifs
    · linarith
    · have := hinv.future _ hget; linarith
  refine ⟨hgap, s', ⟨h3, ?_⟩, ?_, ?_⟩
  · by_cases hacc : cfg.errRatio s.x (out s.x s.t dt s.k1).2.1 (out s.x s.t dt s.k1).2.2.1 ≤ 1
    · obtain ⟨a1, a2, a3, -⟩ := h2.accepted hacc
      rw [a1, a2, a3]
      refine hgood _ _ _ _ hk hinv.ge0 h2.dt_pos h2.le_T fun hi b hb hlt => ?_
      refine h2.le_next hi b ?_
      rw [← List.take_append_drop s.ckpt tEval] at hb
      rcases List.mem_append.1 hb with hb | hb
      · exact absurd hlt (not_lt.2 (hinv.past b hb))
      · exact hb
    · obtain ⟨a1, a2, a3, -⟩ := h2.rejected hacc
      rw [a1, a2, a3]; exact hk
  · rintro ⟨fuel, r, hr⟩
    refine ⟨fuel + 1, r, ?_⟩
    rw [adaptiveLoop, if_pos ht, h1]
    exact hr
  · by_cases hacc : cfg.errRatio s.x (out s.x s.t dt s.k1).2.1 (out s.x s.t dt s.k1).2.2.1 ≤ 1
    · obtain ⟨ht', _, _, hck', _⟩ := h2.accepted hacc
      have hgr : dt' = dt ∧ dt = s.dt → (s.dt ≤ δ → s.dt ≤ s'.dt ∧ s'.dt ≤ C * s.dt) := by
        rintro ⟨e1, e2⟩ hd
        rw [hs'dt, e1, e2]
        refine hgrow _ _ hinv.dt_pos ?_
        exact hsmall _ _ _ _ hk hinv.ge0 hinv.t_le hinv.dt_pos hd
      by_cases hi : cfg.interp.isSome = true
      · simp only [hi, if_true]
        rcases hcase with ⟨e1, e2⟩ | ⟨e1, _⟩
        swap
        · rw [e1] at hi; cases hi
        by_cases hcl : T < s.t + s.dt
        · left
          have : clampDt T s = T - s.t := by rw [clampDt, if_pos hcl]
          have hT' : s'.t = T := by rw [ht', e2, this]; ring
          rw [if_pos ht, hT', if_neg (lt_irrefl _)]; norm_num
        · have e3 : clampDt T s = s.dt := by rw [clampDt, if_neg hcl]
          by_cases hT' : s'.t < T
          · right; left
            refine ⟨by rw [if_pos ht, if_pos hT'], ?_, hgr ⟨e1, e2.trans e3⟩⟩
            rw [ht', e2, e3]; linarith
          · left
            rw [if_pos ht, if_neg hT']; norm_num
      · rw [Bool.not_eq_true] at hi
        have hin : cfg.interp = none := by
          cases h : cfg.interp with
          | none => rfl
          | some d => rw [h] at hi; cases hi
        have hp : passed tEval s.ckpt (s.t + dt) = [] := by
          have := h2.le_next hin
          unfold passed
          cases hd : tEval.drop s.ckpt with
          | nil => rfl
          | cons a l =>
            rw [hd] at this
            rw [List.takeWhile_cons, if_neg]
            simpa using this a (by simp)
        rw [hp] at hck'
        simp only [hi, Bool.false_eq_true, if_false]
        by_cases hm : s.t + dt ∈ tEval
        · left
          rw [if_pos hm] at hck'
          simp at hck'
          omega
        · right; left
          rw [if_neg hm] at hck'
          simp at hck'
          have e3 : dt' = dt ∧ dt = s.dt := by
            rcases hcase with ⟨e1, e2⟩ | ⟨_, _, _, e4⟩
            · refine ⟨e1, ?_⟩
              rw [e2, clampDt]
              split_ifs with hcl
              · exfalso
                apply hm
                rw [e2, clampDt, if_pos hcl, add_sub_cancel]
                exact hTmem
              · rfl
            · exact absurd e4 hm
          refine ⟨by rw [hck'], ?_, hgr e3⟩
          rw [hck', ht', e3.2]; linarith
    · obtain ⟨ht', _, _, hck', _⟩ := h2.rejected hacc
      right; right
      refine ⟨by rw [ht', hck'], by rw [ht', hck'], ?_, ?_⟩
      · by_contra hcon
        rw [not_lt] at hcon
        exact hacc (hsmall _ _ _ _ hk hinv.ge0 hinv.t_le h2.dt_pos (h2.dt_le.trans hcon)).le
      · rw [hs'dt]
        refine (hshrink _ _ hdt' (not_le.1 hacc)).trans ?_
        exact mul_le_mul_of_nonneg_left hdt'le hσ0.le

end Torchdyn
