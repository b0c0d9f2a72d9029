import Verif.Props.DualPitch
import Verif.Props.ToneLock
/-!
# Property C98: `pitch_detector` and `dual_pitch_detector` on a periodic signal
-/
namespace Verif
open FloatOps

/-! ## Any floating-point semantics -/
section
variable {F : Type} [FloatOps F]

/-- The tests `pitch_detector` makes on an analysis `I` all let it through, `f` being the frequency computed from it. -/
structure PitchPass (sps : Nat) (I : PInfo F) (f : F) : Prop where
  freq : f = div (ofInt sps) I.period
  per : eq I.period (lit (-1)) = false
  pty : eq I.periodicity (lit (-1)) = false
  pos : lt (lit 0) f = true
  onset : le Pitch.onsetPeriodicity I.periodicity = true
  above : lt Pitch.minPeriodicity I.periodicity = true
  notBelow : lt I.periodicity Pitch.minPeriodicity = false
  same : lt (FloatOps.abs (sub f f)) (div f (lit 32)) = true

/-- The state of the pitch detector relative to the exact result. -/
def Settled (e : PitchInfo F) (d : Pitch F) : Prop := d.framesAfterShift = 0 ∨ d.current = e

theorem update_exact {sps : Nat} {I : PInfo F} {f : F} (h : PitchPass sps I f) {d : Pitch F} (hs : d.sps = sps)
    (hr : d.pd.zc.isReset = false) (hrd : d.pd.zc.ready = true) (hf : d.pd.fundamental = I) (hc : Settled ⟨f, I.periodicity⟩ d) :
    ∃ n, d.update = .ok ({ d with current := ⟨f, I.periodicity⟩, framesAfterShift := n }, true) := by
  have hcalc : d.calculateFrequency = f := by
    rw [Pitch.calculateFrequency, hf, h.per, hs, h.freq]; rfl
  rw [Pitch.update]
  simp only [hr, hrd, hf, h.pty, hcalc, h.onset, h.pos, h.notBelow, if_true, Bool.false_eq_true, if_false, Bool.and_self]
  split
  · exact ⟨0, rfl⟩
  · rw [Pitch.bias, Pitch.biasResult]
    simp only [hf, h.above, if_true]
    by_cases hd : lt (FloatOps.abs (sub d.current.frequency f)) (div d.current.frequency (lit 32)) = true
    · rw [if_pos hd]
      exact ⟨d.framesAfterShift + 1, rfl⟩
    · rw [if_neg hd]
      rcases hc with hc | hc
      · rw [if_neg (by omega)]
        refine ⟨0, ?_⟩
        simp only [bind, Except.bind, if_true, h.onset]
        rfl
      · rw [hc] at hd
        exact absurd h.same hd

theorem update_idle {d : Pitch F} (hr : d.pd.zc.isReset = false) (hrd : d.pd.zc.ready = false) : d.update = .ok (d, false) := by
  rw [Pitch.update]
  simp only [hr, hrd, Bool.false_eq_true, if_false]

section
variable {y : Nat → F} {hy : F} {N r w : Nat}

/-- One call on the train. -/
theorem pitch_tone_step {W k q sps : Nat} {b : Int} {I : PInfo F} {f : F} (hI : PitchPass sps I f) (ht : Tone y hy N r w)
    (hN : 2 * N ≤ W) (hacc0 : Accept y r w (lit 0)) (hacc : ∀ i, i < N → lt (lit 0) (y i) = true → Accept y r w (y i))
    (hrep : ∀ B, reported W y N r w B = I) {d : Pitch F} (h : PTInv y hy N r w W k q b d.pd) (hs : d.sps = sps)
    (hc : Settled ⟨f, I.periodicity⟩ d) (x : F) (hx : add x (div hy (lit 2)) = y q) :
    ∃ d' o b', d.step x = .ok (d', o) ∧ d.pd.step x = .ok (d'.pd, o) ∧ PTInv y hy N r w W (nextK N k q) (nextQ N q) b' d'.pd ∧
      d'.sps = sps ∧ Settled ⟨f, I.periodicity⟩ d' ∧ d'.current = (if o then ⟨f, I.periodicity⟩ else d.current) := by
  obtain ⟨p', e, i, -, g, hr⟩ := pd_tone_step' ht h hN hacc0 hacc x hx
  by_cases hrd : p'.zc.ready = true
  · have hfund := g hrd
    rw [hrep] at hfund
    obtain ⟨n, hu⟩ := update_exact hI (d := { d with pd := p' }) hs hr hrd hfund hc
    refine ⟨{ d with pd := p', current := ⟨f, I.periodicity⟩, framesAfterShift := n }, true, _, ?_, by rw [e, hrd], i, hs, Or.inr rfl, rfl⟩
    rw [Pitch.step, e, PD.ok_bind]
    exact hu
  · have hrd' : p'.zc.ready = false := by simpa using hrd
    refine ⟨{ d with pd := p' }, false, _, ?_, by rw [e, hrd'], i, hs, hc, rfl⟩
    rw [Pitch.step, e, PD.ok_bind]
    exact update_idle (d := { d with pd := p' }) hr hrd'

theorem runC_snoc {σ ι ο : Type} {step : σ → ι → C (σ × ο)} {s s1 s2 : σ} {xs : List ι} {x : ι} {o1 : List ο} {o : ο}
    (h1 : runC step s xs = .ok (s1, o1)) (h2 : step s1 x = .ok (s2, o)) : runC step s (xs ++ [x]) = .ok (s2, o1 ++ [o]) := by
  refine runC_append h1 ?_
  rw [runC, h2]; rfl

theorem range_snoc {α : Type} (f : Nat → α) (n : Nat) : (List.range (n + 1)).map f = (List.range n).map f ++ [f n] := by
  rw [List.range_succ, List.map_append]; rfl

/-- A run of the train. -/
theorem pitch_tone_run {W sps : Nat} {I : PInfo F} {f : F} (hI : PitchPass sps I f) (ht : Tone y hy N r w)
    (hN : 2 * N ≤ W) (hacc0 : Accept y r w (lit 0)) (hacc : ∀ i, i < N → lt (lit 0) (y i) = true → Accept y r w (y i))
    (hrep : ∀ B, reported W y N r w B = I) (x : Nat → F) (hx : ∀ t, add (x t) (div hy (lit 2)) = y t) (t0 : Nat) (b0 : Int) {d : Pitch F}
    (h : PTInv y hy N r w W (t0 / N) (t0 % N) b0 d.pd) (hs : d.sps = sps) (hc : Settled ⟨f, I.periodicity⟩ d) (n : Nat) :
    ∃ d' ys b', runC Pitch.step d ((List.range n).map fun i => x (t0 + i)) = .ok (d', ys) ∧ ys.length = n ∧
      runC PD.step d.pd ((List.range n).map fun i => x (t0 + i)) = .ok (d'.pd, ys) ∧
      PTInv y hy N r w W ((t0 + n) / N) ((t0 + n) % N) b' d'.pd ∧ d'.sps = sps ∧ Settled ⟨f, I.periodicity⟩ d' ∧
      d'.current = (if true ∈ ys then ⟨f, I.periodicity⟩ else d.current) := by
  have hNpos : 0 < N := by have := ht.rw; omega
  induction n with
  | zero => exact ⟨d, [], b0, rfl, rfl, rfl, h, hs, hc, by simp⟩
  | succ n ih =>
    obtain ⟨d1, ys, b1, e1, l1, p1, i1, s1, c1, g1⟩ := ih
    obtain ⟨d2, o, b2, e2, p2, i2, s2, c2, g2⟩ := pitch_tone_step hI ht hN hacc0 hacc hrep i1 s1 c1 (x (t0 + n)) (by rw [hx, tone_mod ht])
    rw [(posK hNpos).1, (posK hNpos).2] at i2
    refine ⟨d2, ys ++ [o], b2, ?_, by simp [l1], ?_, i2, s2, c2, ?_⟩
    · rw [range_snoc]; exact runC_snoc e1 e2
    · rw [range_snoc]; exact runC_snoc p1 p2
    · rw [g2, g1]
      cases o
      · simp
      · simp

/-- Within `W + w + 1` calls there is an analysis, and the pitch is exact from then on. -/
theorem pitch_tone_now {W sps : Nat} {I : PInfo F} {f : F} (hI : PitchPass sps I f) (ht : Tone y hy N r w)
    (hN : 2 * N ≤ W) (hacc0 : Accept y r w (lit 0)) (hacc : ∀ i, i < N → lt (lit 0) (y i) = true → Accept y r w (y i))
    (hrep : ∀ B, reported W y N r w B = I) (x : Nat → F) (hx : ∀ t, add (x t) (div hy (lit 2)) = y t) (t0 : Nat) (b0 : Int) {d d' : Pitch F}
    (h : PTInv y hy N r w W (t0 / N) (t0 % N) b0 d.pd) (hs : d.sps = sps) (hc : Settled ⟨f, I.periodicity⟩ d) (n : Nat) {ys : List Bool}
    (e : runC Pitch.step d ((List.range n).map fun i => x (t0 + i)) = .ok (d', ys)) (hn : W + w < n) : true ∈ ys ∧ d'.current = ⟨f, I.periodicity⟩ := by
  obtain ⟨d1, ys1, b1, e1, l1, p1, -, -, -, g1⟩ := pitch_tone_run hI ht hN hacc0 hacc hrep x hx t0 b0 h hs hc n
  rw [e] at e1
  injection e1 with e1
  injection e1 with e1 e2
  subst e1; subst e2
  have hm : true ∈ ys := by
    by_contra hm
    have := tone_live ht hN hacc0 hacc x hx t0 b0 h n _ _ p1 hm
    omega
  exact ⟨hm, by rw [g1, if_pos hm]⟩
end
end

/-! ## Locking on, for the pitch detector -/
section
variable {F : Type} [FloatOps F] {y : Nat → F} {hy : F} {N r w : Nat}

/-- A signal whose offset is `y` from `t0` on, extended to the left. -/
theorem tone_extend (ht : Tone y hy N r w) (x : Nat → F) (t0 : Nat) (hx : ∀ i, add (x i) (div hy (lit 2)) = y (t0 + i)) :
    ∃ x' : Nat → F, (∀ u, add (x' u) (div hy (lit 2)) = y u) ∧ ∀ i, x' (t0 + i) = x i := by
  have hNpos : 0 < N := by have := ht.rw; omega
  refine ⟨fun u => if u < t0 then x (t0 * N + u - t0) else x (u - t0), fun u => ?_, fun i => ?_⟩
  · have hge : t0 ≤ t0 * N := Nat.le_mul_of_pos_right _ hNpos
    simp only []
    split
    · rw [hx, show t0 + (t0 * N + u - t0) = t0 * N + u by omega, ht.at]
    · rw [hx, show t0 + (u - t0) = u by omega]
  · simp only []
    rw [if_neg (by omega), Nat.add_sub_cancel_left]

/-- Whatever the state, from some sample on (not later than nine and a half windows) the detector is in the state of a run of the train. -/
theorem pd_locked_zc {W : Nat} {p1 : PD F} (hP : PD.PInv W p1) (hhy : p1.zc.hyst = hy) (ht : Tone y hy N r w) (hN : 2 * N ≤ W)
    (hacc0 : Accept (fun t => y (t + (r + w + 1))) (N - w - 1) w (lit 0))
    (hacc : ∀ i, i < N → lt (lit 0) (y (i + (r + w + 1))) = true → Accept (fun t => y (t + (r + w + 1))) (N - w - 1) w (y (i + (r + w + 1))))
    (x : Nat → F) (hx : ∀ t, add (x t) (div hy (lit 2)) = y t) (s : Nat) :
    ∃ t τ, t + W + w + 1 ≤ 11 * W ∧ (∀ i, y (s + (t + i)) = y (τ + i + (r + w + 1))) ∧
      ∀ z zs, runC ZC.step p1.zc ((List.range t).map fun i => x (s + i)) = .ok (z, zs) →
        ∃ b m hd gs, 0 ≤ b ∧ TInv (fun t => y (t + (r + w + 1))) hy N (N - w - 1) w W (τ / N) (τ % N) b m hd gs [] z ∧
          Accept (fun t => y (t + (r + w + 1))) (N - w - 1) w z.peak ∧ Accept (fun t => y (t + (r + w + 1))) (N - w - 1) w z.peakUpdate := by
  have hW := hP.bits.ok
  have hge := hW.ge
  have hr1 := ht.r1
  have hw1 := ht.w1
  have hrw := ht.rw
  have hNpos : 0 < N := by omega
  have htr := ht.rotate
  obtain ⟨a, c, haN, hac⟩ : ∃ a c, a ≤ N ∧ s + a = c * N + (r + w + 1) := by
    have hd := Nat.div_add_mod s N
    have hm := Nat.mod_lt s hNpos
    rw [Nat.mul_comm] at hd
    by_cases hq : s % N ≤ r + w + 1
    · exact ⟨r + w + 1 - s % N, s / N, by omega, by omega⟩
    · refine ⟨N + (r + w + 1) - s % N, s / N + 1, by omega, ?_⟩
      rw [Nat.add_mul]; omega
  -- the zero-crossing detector alone
  obtain ⟨Y, hY0, hY⟩ := ZSeq.exists hW hP.inv fun i => x (s + i)
  have hyY : (fun t => add (x (s + t)) (div p1.zc.hyst (lit 2))) = fun t => y (s + t) := by
    funext t; rw [hhy, hx]
  rw [hyY, hhy] at hY
  have hZ := hY.shift a
  have hyZ : (fun t => y (s + (a + t))) = fun t => y (t + (r + w + 1)) := by
    funext t
    rw [show s + (a + t) = c * N + (t + (r + w + 1)) by omega, ht.at]
  rw [hyZ] at hZ
  obtain ⟨t, τ, b, m, hd, gs, hle, hτ, hb, hi, hpk, hpu⟩ := zseq_lock hW hZ htr hN (by omega) hacc0 hacc
  refine ⟨a + t, τ, by omega, fun i => ?_, fun p ys e => ?_⟩
  · have h1 : y (s + (a + (t + i))) = y (t + i + (r + w + 1)) := congrFun hyZ (t + i)
    rw [show s + (a + t + i) = s + (a + (t + i)) by omega, h1]
    have h2 : y ((t + i) % N + (r + w + 1)) = y (t + i + (r + w + 1)) := tone_mod htr (t + i)
    have h3 : y ((τ + i) % N + (r + w + 1)) = y (τ + i + (r + w + 1)) := tone_mod htr (τ + i)
    rw [← h2, ← h3, Nat.add_mod, ← hτ, ← Nat.add_mod]
  · rw [← hY0] at e
    have hz := zseq_run hY (a + t) _ _ e
    exact ⟨b, m, hd, gs, hb, by rw [hz]; exact hi, by rw [hz]; exact hpk, by rw [hz]; exact hpu⟩

theorem pd_locked {W : Nat} {p1 : PD F} (hP : PD.PInv W p1) (hhy : p1.zc.hyst = hy) (ht : Tone y hy N r w) (hN : 2 * N ≤ W)
    (hmin : p1.minPeriod ≤ N) (hacc0 : Accept (fun t => y (t + (r + w + 1))) (N - w - 1) w (lit 0))
    (hacc : ∀ i, i < N → lt (lit 0) (y (i + (r + w + 1))) = true → Accept (fun t => y (t + (r + w + 1))) (N - w - 1) w (y (i + (r + w + 1))))
    (x : Nat → F) (hx : ∀ t, add (x t) (div hy (lit 2)) = y t) (s : Nat) :
    ∃ t τ, t + W + w + 1 ≤ 11 * W ∧ (∀ i, y (s + (t + i)) = y (τ + i + (r + w + 1))) ∧
      ∀ p ys, runC PD.step p1 ((List.range t).map fun i => x (s + i)) = .ok (p, ys) →
        ∃ b, PTInv (fun t => y (t + (r + w + 1))) hy N (N - w - 1) w W (τ / N) (τ % N) b p := by
  obtain ⟨t, τ, h1, h2, h3⟩ := pd_locked_zc hP hhy ht hN hacc0 hacc x hx s
  refine ⟨t, τ, h1, h2, fun p ys e => ?_⟩
  obtain ⟨Pa, ma, zsa, za⟩ := pd_run' hP e
  obtain ⟨b, m, hd, gs, hb, hi, hpk, hpu⟩ := h3 _ _ za
  exact ⟨b, Pa, ⟨m, hd, gs, hi⟩, hb, by rw [ma]; exact hmin, hpk, hpu⟩
end

/-! ## Exact arithmetic -/

theorem pitchPass_rat {sps N : Nat} (hs : 0 < sps) (hN : 0 < N) : PitchPass sps (⟨N, 1⟩ : PInfo ℚ) ((sps : ℚ) / N) := by
  have h1 : (0 : ℚ) < N := by exact_mod_cast hN
  have h2 : (0 : ℚ) < sps := by exact_mod_cast hs
  have h3 : (0 : ℚ) < sps / N := div_pos h2 h1
  refine ⟨?_, ?_, ?_, ?_, ?_, ?_, ?_, ?_⟩
  · simp [FloatOps.div, FloatOps.ofInt]
  · rw [Bool.eq_false_iff, Ne, rat_eq]; show ¬ (N : ℚ) = -1; linarith
  · rw [Bool.eq_false_iff, Ne, rat_eq]; show ¬ (1 : ℚ) = -1; norm_num
  · rw [rat_lt]; exact h3
  · rw [rat_le]; show (95 / 100 : ℚ) ≤ 1; norm_num
  · rw [rat_lt]; show (90 / 100 : ℚ) < 1; norm_num
  · rw [Bool.eq_false_iff, Ne, rat_lt]; show ¬ (1 : ℚ) < 90 / 100; norm_num
  · rw [rat_lt, rat_abs]
    show |(sps : ℚ) / N - sps / N| < sps / N / 32
    rw [sub_self, abs_zero]; linarith

/-- **C98** A freshly constructed pitch detector is fed a pulse train, of any shape, whose frequency is in the range of the detector.
Every call succeeds.  After any number `T` of calls, either no analysis has been made yet and no pitch is reported
(`0`), or the reported pitch is exactly `sps / N`, with periodicity 1.  An analysis is made at least once in any `W + w + 1`
consecutive calls, `W` being the size of the window.  (Excepted: windows of 320 samples with periods above 128.) -/
theorem C98_pulse_train (lowest highest : ℚ) (sps : Nat) (hyst : ℚ) (hl : 0 < lowest) (hh : 0 < highest) (d0 : Pitch ℚ)
    (h0 : Pitch.mk' lowest highest sps hyst = .ok d0) (hw : d0.pd.zc.window ≤ 2 ^ 27) (x : Nat → ℚ) (N r w : Nat)
    (hx : PulseTrain x hyst N r w) (h1 : lowest ≤ (sps : ℚ) / N) (h2 : (sps : ℚ) / N ≤ highest)
    (hex : d0.pd.zc.window ≠ 320 ∨ N ≤ 128) (T : Nat) :
    ∃ d ys, runC Pitch.step d0 ((List.range T).map x) = .ok (d, ys) ∧ ys.length = T ∧
      d.current = (if true ∈ ys then ⟨(sps : ℚ) / N, 1⟩ else ⟨0, 0⟩) ∧
      ∀ t, t + d0.pd.zc.window + w < T → ∃ s, t ≤ s ∧ s ≤ t + d0.pd.zc.window + w ∧ ys[s]? = some true := by
  have ht := hx.tone
  have hNpos : 0 < N := by have := hx.fits; omega
  obtain ⟨h0', hcur, hsps⟩ := pitch_mk h0
  obtain ⟨c1, c2⟩ := covers h0' hl hh hNpos h1 h2
  obtain ⟨a0, a1⟩ := tone_accept ht
  obtain ⟨i0, f0⟩ := fresh_inv (N := N) h0' hw ht c2 a0
  have hoff : ∀ t, add (x t) (div (neg hyst) (lit 2)) = x t + -hyst / 2 := fun t => rfl
  have hhalf := half_fits (N := N) i0.pinv.bits.ok.even i0.pinv.bits.ok.ge c1 hex
  have hrep : ∀ B, reported d0.pd.zc.window (fun t => x t + -hyst / 2) N r w B = ⟨N, 1⟩ := fun B => by
    rw [reported_rat, if_neg (half_differs hx.gap hx.pulse hx.fits B _ hhalf)]
  have hspos : 0 < sps := by
    rcases Nat.eq_zero_or_pos sps with h | h
    · rw [h] at h1; simp at h1; linarith
    · exact h
  have hfas : d0.framesAfterShift = 0 := by
    rw [Pitch.mk'] at h0
    match e : PD.mk' lowest highest sps hyst, h0 with
    | .error _, h => cases h
    | .ok pd, h => injection h with h; rw [← h]
  obtain ⟨d, ys, b, e, l, ep, i, -, -, g⟩ := pitch_tone_run (pitchPass_rat hspos hNpos) ht c1 a0 a1 hrep x hoff 0 0 i0 hsps (Or.inl hfas) T
  simp only [Nat.zero_add] at e ep
  refine ⟨d, ys, e, l, ?_, ?_⟩
  · rw [g]
    split
    · rfl
    · exact hcur
  · obtain ⟨p, ys', e', -, -, lv⟩ := C97_pulse_train lowest highest sps hyst hl hh d0.pd h0' hw x N r w hx h1 h2 hex T
    rw [ep] at e'
    injection e' with e'
    injection e' with e1 e2
    rw [e2]
    exact lv

/-! ### After any history -/

/-- The reported pitch `c` is the frequency `f`, or `f` multiplied or divided by a whole number, with full periodicity. -/
def Locked (f : ℚ) (c : PitchInfo ℚ) : Prop :=
  c.periodicity = 1 ∧ ∃ m : Nat, 1 ≤ m ∧ (c.frequency = f * m ∨ c.frequency = f / m)

theorem pitch_locked_step {y : Nat → ℚ} {hy : ℚ} {N r w W k q sps : Nat} {b : Int} (hspos : 0 < sps) (hNpos : 0 < N) (ht : Tone y hy N r w)
    (hN : 2 * N ≤ W) (hrep : ∀ B, reported W y N r w B = ⟨N, 1⟩) {d d' : Pitch ℚ} {o : Bool} (h : PTInv y hy N r w W k q b d.pd) (hs : d.sps = sps)
    (hok : PitchOk d.current) (x : ℚ) (hx : x + hy / 2 = y q) (e : d.step x = .ok (d', o)) :
    d.pd.step x = .ok (d'.pd, o) ∧ (∃ b', PTInv y hy N r w W (nextK N k q) (nextQ N q) b' d'.pd) ∧
      d'.sps = sps ∧ PitchOk d'.current ∧ if o then Locked ((sps : ℚ) / N) d'.current else d'.current = d.current := by
  obtain ⟨a0, a1⟩ := tone_accept ht
  obtain ⟨p', ep, i, -, g, hr⟩ := pd_tone_step' ht h hN a0 a1 x hx
  have hsafe := pitch_step h.pinv x
  have hsafe' : PD.PInv W d'.pd ∧ d'.sps = d.sps ∧ ∃ b, d.pd.step x = .ok (d'.pd, b) := by
    rcases hsafe with ⟨q, eq, hq⟩ | eq
    · rw [e] at eq; injection eq with eq; rw [← eq] at hq; exact hq
    · rw [e] at eq; cases eq
  obtain ⟨hPI, hsps, b2, eb⟩ := hsafe'
  rw [ep] at eb
  injection eb with eb
  injection eb with e1 e2
  have hrule := pitch_rules d d' x o e hok.1
  have hok' := pitchRule_ok hrule hok (fok_bounds hPI hPI.fund)
  have h1 : (0 : ℚ) < N := by exact_mod_cast hNpos
  have h2 : (0 : ℚ) < sps := by exact_mod_cast hspos
  have h3 : (0 : ℚ) < sps / N := div_pos h2 h1
  unfold PitchRule at hrule
  rw [← e1, hr] at hrule
  simp only [Bool.false_eq_true, if_false] at hrule
  by_cases hrd : p'.zc.ready = true
  · have hf := g hrd
    rw [hrep] at hf
    have hest : estimate d' = (sps : ℚ) / N := by
      rw [estimate, ← e1, hf, if_neg (by show ¬ (N : ℚ) = -1; linarith), hsps, hs]
    rw [hrd, hf, hest] at hrule
    simp only [Bool.true_eq_false, if_false] at hrule
    rw [if_neg (by norm_num)] at hrule
    obtain ⟨ho, hrule⟩ := hrule
    refine ⟨by rw [ep, e1, ho, ← e1, hrd], ⟨_, by rw [← e1]; exact i⟩, by rw [hsps, hs], hok', ?_⟩
    rw [ho]
    simp only [if_true]
    have one : Locked ((sps : ℚ) / N) ⟨(sps : ℚ) / N, 1⟩ := ⟨rfl, 1, le_refl _, Or.inl (by simp)⟩
    split at hrule
    · rw [if_pos ⟨by norm_num, h3⟩] at hrule
      rw [hrule.1]; exact one
    · rw [if_neg (by norm_num)] at hrule
      unfold BiasRule at hrule
      split at hrule
      · rw [hrule.1]; exact one
      · split at hrule
        · obtain ⟨⟨-, m, hm, hc⟩, hp1, -⟩ := hrule
          have hmm : ((m.toNat : Nat) : ℚ) = (m : ℚ) := by
            have : ((m.toNat : Nat) : Int) = m := by omega
            exact_mod_cast congrArg (fun z : Int => (z : ℚ)) this
          refine ⟨hp1, m.toNat, by omega, ?_⟩
          rw [hmm]
          rcases hc with ⟨-, hc⟩ | ⟨-, hc⟩
          · exact Or.inl hc
          · exact Or.inr hc
        · rw [if_pos (by norm_num)] at hrule
          rw [hrule.1]; exact one
  · have hrd' : p'.zc.ready = false := by simpa using hrd
    rw [if_pos hrd'] at hrule
    refine ⟨by rw [ep, e1, hrule.2, ← e1, hrd'], ⟨_, by rw [← e1]; exact i⟩, by rw [hsps, hs], hok', ?_⟩
    rw [hrule.2]
    exact hrule.1

theorem pitch_locked_run {y : Nat → ℚ} {hy : ℚ} {N r w W sps : Nat} {b : Int} (hspos : 0 < sps) (hNpos : 0 < N) (ht : Tone y hy N r w)
    (hN : 2 * N ≤ W) (hrep : ∀ B, reported W y N r w B = ⟨N, 1⟩) {d : Pitch ℚ} (t0 : Nat) (h : PTInv y hy N r w W (t0 / N) (t0 % N) b d.pd) (hs : d.sps = sps)
    (hok : PitchOk d.current) (x : Nat → ℚ) (hx : ∀ t, x t + hy / 2 = y t) (n : Nat) (d' : Pitch ℚ) (ys : List Bool)
    (e : runC Pitch.step d ((List.range n).map fun i => x (t0 + i)) = .ok (d', ys)) :
    runC PD.step d.pd ((List.range n).map fun i => x (t0 + i)) = .ok (d'.pd, ys) ∧
      (∃ b', PTInv y hy N r w W ((t0 + n) / N) ((t0 + n) % N) b' d'.pd) ∧
      d'.sps = sps ∧ PitchOk d'.current ∧ if true ∈ ys then Locked ((sps : ℚ) / N) d'.current else d'.current = d.current := by
  induction n generalizing d' ys with
  | zero =>
    injection e with e
    injection e with e1 e2
    subst e1; subst e2
    exact ⟨rfl, ⟨b, h⟩, hs, hok, by simp⟩
  | succ n ih =>
    rw [range_snoc] at e
    obtain ⟨d1, o1, o2, e1, e2, e3⟩ := runC_split e
    obtain ⟨p1, ⟨b1, i1⟩, s1, k1, g1⟩ := ih _ _ e1
    have hlast : ∃ o, d1.step (x (t0 + n)) = .ok (d', o) ∧ o2 = [o] := by
      rw [runC] at e2
      cases hs : d1.step (x (t0 + n)) with
      | error err => rw [hs] at e2; cases e2
      | ok rr =>
        obtain ⟨a, o⟩ := rr
        rw [hs] at e2
        injection e2 with e2
        injection e2 with e4 e5
        subst e4
        exact ⟨o, rfl, e5.symm⟩
    obtain ⟨o, e4, rfl⟩ := hlast
    obtain ⟨p2, ⟨b2, i2⟩, s2, k2, g2⟩ := pitch_locked_step hspos hNpos ht hN hrep i1 s1 k1 (x (t0 + n)) (by rw [hx, tone_mod ht]) e4
    rw [(posK hNpos).1, (posK hNpos).2] at i2
    refine ⟨?_, ⟨b2, i2⟩, s2, k2, ?_⟩
    · rw [range_snoc, e3]; exact runC_snoc p1 p2
    · rw [e3]
      cases o
      · simp only [Bool.false_eq_true, if_false] at g2
        simp only [List.mem_append, List.mem_singleton, Bool.true_eq_false, or_false]
        rw [g2]; exact g1
      · simp only [if_true] at g2
        simp only [List.mem_append, List.mem_singleton, or_true, if_true]
        exact g2

theorem pitch_pd_run {W : Nat} {d d' : Pitch ℚ} {xs : List ℚ} {ys : List Bool} (h : PD.PInv W d.pd) (e : runC Pitch.step d xs = .ok (d', ys)) :
    ∃ zs, runC PD.step d.pd xs = .ok (d'.pd, zs) := by
  induction xs generalizing d ys with
  | nil => injection e with e; injection e with e1 e2; subst e1; exact ⟨[], rfl⟩
  | cons x xs ih =>
    rw [runC] at e
    rcases pitch_step h x with ⟨⟨d1, o⟩, e1, hr1, -, b, hb⟩ | e1
    · rw [e1, PD.ok_bind] at e
      cases e2 : runC Pitch.step d1 xs with
      | error err => simp only [bind, Except.bind, e2] at e; cases e
      | ok rr =>
        obtain ⟨d2, ys2⟩ := rr
        simp only [bind, Except.bind, e2] at e
        injection e with e
        injection e with e3 e4
        subst e3
        obtain ⟨zs, hz⟩ := ih hr1 e2
        refine ⟨b :: zs, ?_⟩
        have hb' : d.pd.step x = .ok (d1.pd, b) := hb
        have hz' : runC PD.step d1.pd xs = .ok (d2.pd, zs) := hz
        rw [runC, hb', PD.ok_bind]
        simp only []
        rw [hz']
        rfl
    · rw [e1] at e; cases e

/-- **C98, after any history.** A pitch detector that has processed any signal `xs` is fed a pulse train from any point `s` of it on.
After eleven windows (and for as long as the train lasts) the reported pitch is `sps / N`, multiplied or divided by a whole number,
with periodicity 1.  (See `C98_violation_octave` for the whole number; as for C97 it is assumed that the calls complete.) -/
theorem C98_lock_on_partial (lowest highest : ℚ) (sps : Nat) (hyst : ℚ) (hl : 0 < lowest) (hh : 0 < highest) (d0 : Pitch ℚ)
    (h0 : Pitch.mk' lowest highest sps hyst = .ok d0) (hw : d0.pd.zc.window ≤ 2 ^ 27) (xs : List ℚ) (x : Nat → ℚ) (N r w : Nat)
    (hx : PulseTrain x hyst N r w) (h1 : lowest ≤ (sps : ℚ) / N) (h2 : (sps : ℚ) / N ≤ highest)
    (hex : d0.pd.zc.window ≠ 320 ∨ N ≤ 128) (s T : Nat) (hT : 11 * d0.pd.zc.window ≤ T) (d : Pitch ℚ) (ys : List Bool)
    (hrun : runC Pitch.step d0 (xs ++ (List.range T).map fun t => x (s + t)) = .ok (d, ys)) :
    Locked ((sps : ℚ) / N) d.current := by
  have ht := hx.tone
  have hNpos : 0 < N := by have := hx.fits; omega
  obtain ⟨h0', hcur, hsps⟩ := pitch_mk h0
  obtain ⟨c1, c2⟩ := covers h0' hl hh hNpos h1 h2
  obtain ⟨hP, -, w0, -, hz⟩ := pd_mk h0' hw
  have hspos : 0 < sps := by
    rcases Nat.eq_zero_or_pos sps with h | h
    · rw [h] at h1; simp at h1; linarith
    · exact h
  obtain ⟨d1, o1, o2, e1, e2, -⟩ := runC_split hrun
  obtain ⟨zs1, e1p⟩ := pitch_pd_run hP e1
  obtain ⟨P1, m1, zs1', z1⟩ := pd_run' hP e1p
  obtain ⟨-, k1, s1⟩ := pitch_run hP (by rw [hcur]; exact pitchOk_zero) xs d1 o1 e1
  have hhy : d1.pd.zc.hyst = neg hyst := by rw [zc_run_hyst hP.bits.ok hP.inv z1, hz]; rfl
  have hr := ht.rotate
  obtain ⟨a0, a1⟩ := tone_accept hr
  obtain ⟨t, τ, hle, hyt, hlock⟩ := pd_locked P1 hhy ht c1 (by rw [m1]; exact c2) a0 a1 x (fun t => rfl) s
  rw [show T = t + (T - t) by omega, range_split] at e2
  obtain ⟨d2, o3, o4, e3, e4, -⟩ := runC_split e2
  obtain ⟨zs2, e3p⟩ := pitch_pd_run P1 e3
  obtain ⟨b, hi⟩ := hlock _ _ e3p
  obtain ⟨-, k2, s2⟩ := pitch_run P1 k1 _ d2 o3 e3
  obtain ⟨x', hx', hxe⟩ := tone_extend hr (fun i => x (s + (t + i))) τ (fun i => hyt i)
  have hlist : ((List.range (T - t)).map fun i => x (s + (t + i))) = (List.range (T - t)).map fun i => x' (τ + i) :=
    List.map_congr_left fun i _ => (hxe i).symm
  rw [hlist] at e4
  have hhalf := half_fits (N := N) hP.bits.ok.even hP.bits.ok.ge c1 hex
  have hrep : ∀ B, reported d0.pd.zc.window (fun t => (fun t => x t + -hyst / 2) (t + (r + w + 1))) N (N - w - 1) w B = ⟨N, 1⟩ := fun B => by
    rw [reported_rat, if_neg (half_differs hr.r1 hr.w1 hr.rw B _ hhalf)]
  obtain ⟨ep, -, -, -, g⟩ := pitch_locked_run hspos hNpos hr c1 hrep τ hi (by rw [s2, s1, hsps]) k2 x' hx' (T - t) d o4 e4
  have hm : true ∈ o4 := by
    by_contra hm
    have := tone_live hr c1 a0 a1 x' hx' τ b hi (T - t) _ _ ep hm
    omega
  rw [if_pos hm] at g
  exact g

/-! ## The hypotheses are met -/

/-- The detector for 100–1600 Hz at 6400 samples per second, fed a 320 Hz train: from sample 134 on it reports exactly 320 Hz. -/
example : ∃ d0, Pitch.mk' (100 : ℚ) 1600 6400 (1 / 100) = .ok d0 ∧ ∀ T, 134 ≤ T → ∃ d ys, runC Pitch.step d0 ((List.range T).map bumpy) = .ok (d, ys) ∧
    d.current = ⟨320, 1⟩ := by
  have hw : ((Pitch.mk' (100 : ℚ) 1600 6400 (1 / 100)).toOption.map (fun p => p.pd.zc.window)) = some 128 := by decide +kernel
  match e : Pitch.mk' (100 : ℚ) 1600 6400 (1 / 100) with
  | .error _ => rw [e] at hw; cases hw
  | .ok d0 =>
    rw [e] at hw
    simp only [Except.toOption, Option.map_some, Option.some.injEq] at hw
    refine ⟨d0, rfl, fun T hT => ?_⟩
    obtain ⟨d, ys, e1, l, f, lv⟩ := C98_pulse_train 100 1600 6400 (1 / 100) (by norm_num) (by norm_num) d0 e (by omega) bumpy 20 3 5 bumpy_train
      (by norm_num) (by norm_num) (by omega) T
    obtain ⟨s, -, -, hs⟩ := lv 0 (by omega)
    have hm : true ∈ ys := List.mem_of_getElem? hs
    exact ⟨d, ys, e1, by rw [f, if_pos hm]; norm_num⟩

/-- The same detector after a burst at fifty times full scale, fed a 320 Hz train starting in the middle of a pulse: the pitch after
1408 samples is 320 Hz, multiplied or divided by a whole number. -/
example : ∃ d0 d ys, Pitch.mk' (100 : ℚ) 1600 6400 (1 / 100) = .ok d0 ∧
    runC Pitch.step d0 ([50, 40, -50, 30, 50, -1, -40, 0] ++ (List.range 1408).map fun t => bumpy (5 + t)) = .ok (d, ys) ∧ Locked 320 d.current := by
  have hw : ((Pitch.mk' (100 : ℚ) 1600 6400 (1 / 100)).toOption.map (fun p => (p.pd.zc.window,
      (runC Pitch.step p ([50, 40, -50, 30, 50, -1, -40, 0] ++ (List.range 1408).map fun t => bumpy (5 + t))).toOption.isSome))) = some (128, true) := by decide +kernel
  match e : Pitch.mk' (100 : ℚ) 1600 6400 (1 / 100) with
  | .error _ => rw [e] at hw; cases hw
  | .ok d0 =>
    rw [e] at hw
    have h1 : d0.pd.zc.window = 128 := congrArg (fun o : Option (Nat × Bool) => (o.getD (0, false)).1) hw
    have h2 : (runC Pitch.step d0 ([50, 40, -50, 30, 50, -1, -40, 0] ++ (List.range 1408).map fun t => bumpy (5 + t))).toOption.isSome = true :=
      congrArg (fun o : Option (Nat × Bool) => (o.getD (0, false)).2) hw
    match e2 : runC Pitch.step d0 ([50, 40, -50, 30, 50, -1, -40, 0] ++ (List.range 1408).map fun t => bumpy (5 + t)) with
    | .error _ => rw [e2] at h2; cases h2
    | .ok (d, ys) =>
      refine ⟨d0, d, ys, rfl, e2, ?_⟩
      have := C98_lock_on_partial 100 1600 6400 (1 / 100) (by norm_num) (by norm_num) d0 e (by omega) _ bumpy 20 3 5 bumpy_train
        (by norm_num) (by norm_num) (by omega) 5 1408 (by omega) d ys e2
      have h320 : ((6400 : Nat) : ℚ) / (20 : Nat) = 320 := by norm_num
      rw [h320] at this
      exact this
end Verif
