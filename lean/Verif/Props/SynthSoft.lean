import Verif.Props.Synth
import Mathlib.Analysis.Complex.ExponentialBounds
/-!
# C100: a soft note played over the end of a loud one is lost
-/
namespace Verif
open Rounding Example Env

namespace Example

theorem fl32_small {x : ℚ} (h : |x| ≤ 2) : |fl32 x - x| ≤ 2 / 2 ^ 24 := by
  refine (fl32_lawful.err x).trans (max_le (div_le_div_of_nonneg_right h (by norm_num)) ?_)
  rw [show (-149 : ℤ) = -((149 : ℕ) : ℤ) by norm_num, zpow_neg, zpow_natCast]
  norm_num

theorem fl64_small {x : ℚ} (B : ℚ) (hB : 1 ≤ B) (h : |x| ≤ B) : |fl64 x - x| ≤ B / 2 ^ 53 := by
  refine (fl64_lawful.err x).trans (max_le (div_le_div_of_nonneg_right h (by norm_num)) ?_)
  rw [show (-1074 : ℤ) = -((1074 : ℕ) : ℤ) by norm_num, zpow_neg, zpow_natCast]
  have h1 : ((2 : ℚ) ^ 1074)⁻¹ ≤ 1 / 2 ^ 53 := by
    rw [← one_div]
    apply one_div_le_one_div_of_le (by positivity)
    exact pow_le_pow_right₀ (by norm_num) (by norm_num)
  have h2 : (1 : ℚ) / 2 ^ 53 ≤ B / 2 ^ 53 := div_le_div_of_nonneg_right hB (by norm_num)
  have h3 : 0 < ((2 : ℚ) ^ 1074)⁻¹ := by positivity
  generalize ((2 : ℚ) ^ 1074)⁻¹ = w at *
  linarith

/-- The attack coefficient for 100 ms at 44.1 kHz. -/
theorem coef_attack {d : ℚ} (h1 : 4400 ≤ 44100 * d) (h2 : 44100 * d ≤ 4420) :
    44 / 100000 ≤ 1 - coef fl32 fl64 44100 d ∧ 1 - coef fl32 fl64 44100 d ≤ 47 / 100000 := by
  unfold coef
  have a1 := abs_le.1 (fl64_small 5000 (by norm_num) (x := (44100 : ℕ) * d) (by rw [abs_le]; push_cast; constructor <;> linarith))
  push_cast at a1 ⊢
  generalize fl64 (44100 * d) = q at *
  have q1 : 4399 ≤ q := by norm_num at a1 ⊢; linarith
  have q2 : q ≤ 4421 := by norm_num at a1 ⊢; linarith
  have q0 : 0 < q := by linarith
  have b1 : -2 / q ≤ -2 / 4421 := by
    rw [neg_div, neg_div, neg_le_neg_iff]; exact div_le_div_of_nonneg_left (by norm_num) q0 q2
  have b2 : -2 / 4399 ≤ -2 / q := by
    rw [neg_div, neg_div, neg_le_neg_iff]; exact div_le_div_of_nonneg_left (by norm_num) (by norm_num) q1
  have a2 := abs_le.1 (fl64_small 1 (by norm_num) (x := -2 / q) (by rw [abs_le]; norm_num at b1 b2 ⊢; constructor <;> linarith))
  generalize fl64 (-2 / q) = u at *
  have a3 := abs_le.1 (fl32_small (x := u) (by rw [abs_le]; norm_num at a2 b1 b2 ⊢; constructor <;> linarith))
  generalize fl32 u = x at *
  have x1 : -46 / 100000 ≤ x := by norm_num at a2 a3 b1 b2 ⊢; linarith
  have x2 : x ≤ -45 / 100000 := by norm_num at a2 a3 b1 b2 ⊢; linarith
  have x1' : (-46 / 100000 : ℝ) ≤ x := by exact_mod_cast x1
  have x2' : (x : ℝ) ≤ -45 / 100000 := by exact_mod_cast x2
  have hx : |(x : ℝ)| ≤ 46 / 100000 := by rw [abs_le]; constructor <;> linarith
  have e1 := abs_le.1 (C85_exp3 x (by linarith))
  have e2 := Real.abs_exp_sub_one_sub_id_le (x := (x : ℝ)) (by linarith)
  have e3 := abs_le.1 e2
  have hsq : (x : ℝ) ^ 2 ≤ (46 / 100000) ^ 2 := by rw [← sq_abs]; exact pow_le_pow_left₀ (abs_nonneg _) hx 2
  have h4 : |(x : ℝ)| ^ 4 ≤ (46 / 100000) ^ 4 := pow_le_pow_left₀ (abs_nonneg _) hx 4
  have hf : fastExp3 fl32 x = FastMath.exp3 fl32 x := rfl
  rw [hf]
  have r1 : (((44 / 100000 : ℚ)) : ℝ) ≤ ((1 - FastMath.exp3 fl32 x : ℚ) : ℝ) := by push_cast; norm_num at hsq h4 ⊢; linarith
  have r2 : ((1 - FastMath.exp3 fl32 x : ℚ) : ℝ) ≤ ((47 / 100000 : ℚ) : ℝ) := by push_cast; norm_num at hsq h4 ⊢; linarith
  exact ⟨by exact_mod_cast r1, by exact_mod_cast r2⟩

/-- One frame of the attack, near the start. -/
theorem attack_tick {e : Env.Envelope} (h1 : 44 / 100000 ≤ 1 - e.attackRate) (h2 : 1 - e.attackRate ≤ 47 / 100000) (hs : e.state = .attack)
    (hl : e.level = some (127 / 128)) {n : Nat} (hn : n < 20) (y1 : n * (62 / 100000) ≤ e.y) (y2 : e.y ≤ n * (1 / 1000)) :
    ∃ y, Env.tick fl32 fl64 e = .ok ({ e with y := y }, y) ∧ ((n + 1 : Nat) : ℚ) * (62 / 100000) ≤ y ∧ y ≤ ((n + 1 : Nat) : ℚ) * (1 / 1000) := by
  have hn' : (n : ℚ) ≤ 19 := by exact_mod_cast (by omega : n ≤ 19)
  have hn0 : (0 : ℚ) ≤ n := by positivity
  have a1 := abs_le.1 (fl32_small (x := 16 / 10) (by norm_num))
  have key : ((n + 1 : Nat) : ℚ) * (62 / 100000) ≤ approach fl32 (fl32 (16 / 10)) e.attackRate e.y ∧
      approach fl32 (fl32 (16 / 10)) e.attackRate e.y ≤ ((n + 1 : Nat) : ℚ) * (1 / 1000) := by
    unfold approach
    generalize fl32 (16 / 10) = t at *
    have a2 := abs_le.1 (fl32_small (x := e.y - t) (by rw [abs_le]; norm_num at a1 y1 y2 ⊢; constructor <;> linarith))
    generalize fl32 (e.y - t) = u at *
    generalize e.attackRate = r at *
    have u1 : -1.61 ≤ u := by norm_num at a1 a2 y1 y2 ⊢; linarith
    have u2 : u ≤ -1.5 := by norm_num at a1 a2 y1 y2 ⊢; linarith
    have ru1 : (1 - r) * 1.5 ≤ (1 - r) * (-u) := mul_le_mul_of_nonneg_left (by linarith) (by linarith)
    have ru2 : (1 - r) * (-u) ≤ (1 - r) * 1.61 := mul_le_mul_of_nonneg_left (by linarith) (by linarith)
    have a3 := abs_le.1 (fl32_small (x := r * u) (by rw [abs_le]; norm_num at ru1 ru2 u1 u2 ⊢; constructor <;> linarith))
    generalize fl32 (r * u) = w at *
    have a4 := abs_le.1 (fl32_small (x := t + w) (by rw [abs_le]; norm_num at a1 a3 ru1 ru2 u1 u2 ⊢; constructor <;> linarith))
    generalize fl32 (t + w) = z at *
    push_cast
    norm_num at *
    constructor <;> linarith
  refine ⟨_, ?_, key.1, key.2⟩
  have hlt : ¬ (approach fl32 (fl32 (16 / 10)) e.attackRate e.y > 127 / 128) := by
    have := key.2; push_cast at this; norm_num at this ⊢; linarith
  unfold Env.tick
  rw [hs]
  simp only [updateAttack, hl, Env.get, bind, Except.bind, pure, Except.pure, hlt, if_false]
  rw [hs]

/-- The first 20 frames of a loud note. -/
theorem attack_frames {sps : Nat} {s : Synth} (h : SynthInv sps s) (h1 : 44 / 100000 ≤ 1 - s.env.attackRate) (h2 : 1 - s.env.attackRate ≤ 47 / 100000)
    (hs : s.env.state = .attack) (hl : s.env.level = some (127 / 128)) (m n : Nat) (hn : n + m ≤ 20) (y1 : n * (62 / 100000) ≤ s.env.y) (y2 : s.env.y ≤ n * (1 / 1000)) :
    ∃ s' o, s.run fl32 fl64 sps (List.replicate m .frame) = .ok (s', o) ∧ SynthInv sps s' ∧ s'.key = s.key ∧ s'.env.state = .attack ∧
      ((n + m : Nat) : ℚ) * (62 / 100000) ≤ s'.env.y := by
  induction m generalizing s n with
  | zero => exact ⟨s, [], rfl, h, rfl, hs, y1⟩
  | succ m ih =>
    obtain ⟨y, t1, t2, t3⟩ := attack_tick h1 h2 hs hl (n := n) (by omega) y1 y2
    obtain ⟨e, v, s1, o1, f1, f2, f3, f4, f5, -⟩ := frame_ok h
    rw [t1] at f1
    cases f1
    obtain ⟨s', o, r1, r2, r3, r4, r5⟩ := ih f3 (by rw [f4]; exact h1) (by rw [f4]; exact h2) (by rw [f4]; exact hs) (by rw [f4]; exact hl) (n + 1) (by omega)
      (by rw [f4]; exact t2) (by rw [f4]; exact t3)
    refine ⟨s', [(o1, o1)] ++ o, ?_, r2, r3.trans f5, r4, ?_⟩
    · rw [List.replicate_succ, Synth.run, Synth.step, f2, PD.ok_bind]
      simp only [pure, Except.pure]
      rw [PD.ok_bind]
      simp only
      rw [r1]
      rfl
    · rw [show n + (m + 1) = n + 1 + m by omega]; exact r5

end Example

/-- **A soft note played while a loud one fades is lost** (attack of 100 ms at 44.1 kHz, as in the example, any sustain level): A4 at velocity 127 for 20 frames, released, then
C4 pressed at velocity 1 and held.  The envelope goes on fading, and there is a number of frames after which every sample is 0 and the envelope is in its off state although the key
is held; the same C4 played alone never brings the envelope to the off state while it is held. -/
theorem C100_soft_note_violation (c : Env.Config) (hc : ValidConfig c 44100) (hd1 : 4400 ≤ 44100 * c.attackRate) (hd2 : 44100 * c.attackRate ≤ 4420) :
    (∃ N, ∀ m, N ≤ m → ∃ s o o2, (Synth.mk' fl32 fl64 c 44100).run fl32 fl64 44100
        ([.midi 0x7f4590#32] ++ List.replicate 20 .frame ++ [.midi 0x004580#32, .midi 0x013c90#32] ++ List.replicate m .frame) = .ok (s, o ++ o2) ∧ o.length = 20 ∧
        o2.length = m ∧ (∀ n p, N ≤ n → o2[n]? = some p → p = (0, 0)) ∧ s.env.state = .noteOff ∧ s.key = some 60#8) ∧
    (∀ m, ∃ s o, (Synth.mk' fl32 fl64 c 44100).run fl32 fl64 44100 ([.midi 0x013c90#32] ++ List.replicate m .frame) = .ok (s, o) ∧ s.env.state ≠ .noteOff) := by
  have hi := synth_mk_inv hc
  have e1 : status 0x7f4590#32 = 9 := by decide
  have e2 : status 0x004580#32 = 8 := by decide
  have e3 : status 0x013c90#32 = 9 := by decide
  have rep : ∀ m, frames (List.replicate m .frame) = m := by
    intro m; induction m with
    | zero => rfl
    | succ m ih => rw [List.replicate_succ, frames, List.countP_cons]; rw [frames] at ih; rw [ih]; rfl
  obtain ⟨r1, r2⟩ := coef_attack hd1 hd2
  constructor
  · obtain ⟨i, n1, n2⟩ := noteOn_ok (sps := 44100) (by norm_num) hi 69#8 127#8 (by decide)
    have m1 := midi_eq fl32 fl64 44100 (Synth.mk' fl32 fl64 c 44100) 0x7f4590#32
    rw [if_pos e1, show keyOf 0x7f4590#32 = 69#8 by decide, show velOf 0x7f4590#32 = 127#8 by decide, n1] at m1
    have t1 : Env.trigger (Synth.mk' fl32 fl64 c 44100).env (((127#8).toNat : ℚ) / 128) 1 =
        { (Synth.mk' fl32 fl64 c 44100).env with autoDecay := 1, level := some (127 / 128), state := .attack } := by
      unfold Env.trigger
      rw [if_pos (by show (0 : ℚ) < _; simp)]
      simp
    rw [t1] at m1 n2
    obtain ⟨s2, o, a1, a2, a3, a4, a5⟩ := attack_frames n2 r1 r2 rfl rfl 20 0 le_rfl (by show _ ≤ (0 : ℚ); norm_num) (by show (0 : ℚ) ≤ _; norm_num)
    have hlen : o.length = 20 := by
      obtain ⟨s2', o', b1, b2, b3, b4, b5⟩ := run_ok (sps := 44100) (by norm_num) (List.replicate 20 .frame) n2
        (fun ev he => by rw [List.eq_of_mem_replicate he]; trivial) (ordered_of_some _ (by simp))
      rw [a1] at b1
      cases b1
      rw [b5, rep]
    have k2 : s2.key = some 69#8 := a3
    have m2 := midi_eq fl32 fl64 44100 s2 0x004580#32
    rw [if_neg (by omega), if_pos e2, show keyOf 0x004580#32 = 69#8 by decide, noteOff_eq s2 _ _ k2, if_pos rfl] at m2
    have i2 := release_inv a2
    have rel := release_released a2
    have rely : (Env.release s2.env).y = s2.env.y := by unfold Env.release; split_ifs <;> rfl
    obtain ⟨j, n3, n4⟩ := noteOn_ok (sps := 44100) (by norm_num) i2 60#8 1#8 (by decide)
    have t3 : Env.trigger (Env.release s2.env) (((1#8).toNat : ℚ) / 128) 1 = Env.release s2.env := by
      unfold Env.trigger
      rw [if_neg]
      rw [rely]; norm_num at a5 ⊢; linarith
    have m3 := midi_eq fl32 fl64 44100 { s2 with env := Env.release s2.env } 0x013c90#32
    rw [if_pos e3, show keyOf 0x013c90#32 = 60#8 by decide, show velOf 0x013c90#32 = 1#8 by decide, n3] at m3
    simp only [t3] at m3 n4
    obtain ⟨N, hN⟩ := release_ends n4 rel
    refine ⟨N, fun m hm => ?_⟩
    have hq : ∀ ev ∈ List.replicate m SynthEvent.frame, ev.sounds = false := fun ev he => by rw [List.eq_of_mem_replicate he]; rfl
    obtain ⟨s4, o2, q1, q2, q3, q4, q5⟩ := run_ok (sps := 44100) (by norm_num) (List.replicate m .frame) n4 (fun ev he => quiet_valid (hq ev he)) (ordered_of_some _ (by simp))
    obtain ⟨w1, w2⟩ := released_run (by norm_num) _ n4 rel N hN hq q1
    rw [rep] at q5
    refine ⟨s4, o, o2, ?_, hlen, q5, w1, w2 (by omega), ?_⟩
    · rw [List.append_assoc, List.append_assoc, List.singleton_append, Synth.run, Synth.step, m1, PD.ok_bind]
      simp only [pure, Except.pure]
      rw [PD.ok_bind]
      simp only [List.nil_append]
      rw [run_append, a1, PD.ok_bind]
      simp only
      rw [List.cons_append, List.cons_append, List.nil_append, Synth.run, Synth.step, m2, PD.ok_bind]
      simp only [pure, Except.pure]
      rw [PD.ok_bind]
      simp only
      rw [Synth.run, Synth.step, m3, PD.ok_bind]
      simp only [pure, Except.pure]
      rw [PD.ok_bind]
      simp only
      rw [q1]
      rfl
    · rw [q3]
      show lastKey _ (some 60#8) = _
      have : ∀ m k, lastKey (List.replicate m .frame) k = k := by
        intro m k; induction m with
        | zero => rfl
        | succ m ih => rw [List.replicate_succ, lastKey, ih]
      exact this _ _
  · intro m
    obtain ⟨i, n1, n2⟩ := noteOn_ok (sps := 44100) (by norm_num) hi 60#8 1#8 (by decide)
    have m1 := midi_eq fl32 fl64 44100 (Synth.mk' fl32 fl64 c 44100) 0x013c90#32
    rw [if_pos e3, show keyOf 0x013c90#32 = 60#8 by decide, show velOf 0x013c90#32 = 1#8 by decide, n1] at m1
    have t1 : (Env.trigger (Synth.mk' fl32 fl64 c 44100).env (((1#8).toNat : ℚ) / 128) 1).state = .attack := by
      unfold Env.trigger
      rw [if_pos (by show (0 : ℚ) < _; simp)]
    have held : ∀ (m : Nat) (s : Synth), SynthInv 44100 s → (s.env.state = .attack ∨ s.env.state = .decay ∨ s.env.state = .sustain) →
        ∃ s' o, s.run fl32 fl64 44100 (List.replicate m .frame) = .ok (s', o) ∧ s'.env.state ≠ .noteOff := by
      intro m
      induction m with
      | zero => intro s _ hs; exact ⟨s, [], rfl, by rcases hs with h | h | h <;> simp [h]⟩
      | succ m ih =>
        intro s h hs
        obtain ⟨e, v, s1, o1, f1, f2, f3, f4, f5, -⟩ := frame_ok h
        have hst : Env.step fl32 fl64 s.env .tick = .ok e := by rw [Env.step, f1]; rfl
        have hal := C43_transitions fl32 fl64 s.env e .tick hst
        have hs1 : s1.env.state = .attack ∨ s1.env.state = .decay ∨ s1.env.state = .sustain := by
          rw [f4]
          rcases hs with h | h | h <;> rw [h] at hal <;> generalize e.state = st at * <;> cases hal <;> simp
        obtain ⟨s', o, g1, g2⟩ := ih s1 f3 hs1
        refine ⟨s', [(o1, o1)] ++ o, ?_, g2⟩
        rw [List.replicate_succ, Synth.run, Synth.step, f2, PD.ok_bind]
        simp only [pure, Except.pure]
        rw [PD.ok_bind]
        simp only
        rw [g1]
        rfl
    obtain ⟨s', o, g1, g2⟩ := held m _ n2 (.inl t1)
    refine ⟨s', o, ?_, g2⟩
    rw [List.singleton_append, Synth.run, Synth.step, m1, PD.ok_bind]
    simp only [pure, Except.pure]
    rw [PD.ok_bind]
    simp only
    rw [g1]
    rfl

/-- The configuration of the example: 100 ms is close enough to 1/10 second. -/
example : ValidConfig ⟨1 / 10, 1, 1 / 4, 5, 1⟩ 44100 ∧ (4400 : ℚ) ≤ 44100 * (1 / 10) ∧ 44100 * (1 / 10) ≤ (4420 : ℚ) := by
  unfold ValidConfig; norm_num

end Verif
