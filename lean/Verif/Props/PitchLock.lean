import Verif.Props.TonePitchFloat
/-!
# Property C98 in single precision, after any history
-/
namespace Verif
open FloatOps Rounding

section
variable {F : Type} [FloatOps F]

/-- `c` is the pitch computed from the analysis `I`, or that multiplied or divided by a whole number above 1. -/
def LockedTo (I : PInfo F) (f : F) (c : PitchInfo F) : Prop :=
  c.periodicity = I.periodicity ∧
    (c.frequency = f ∨ ∃ m : Int, 1 < m ∧ (c.frequency = mul f (ofInt m) ∨ c.frequency = div f (ofInt m)))

theorem bias_locked {sps : Nat} {I : PInfo F} {f : F} (h : PitchPass sps I f) {d d' : Pitch F} (hf : d.pd.fundamental = I)
    (e : d.bias ⟨f, I.periodicity⟩ = .ok d') : LockedTo I f d'.current ∧ d'.pd = d.pd ∧ d'.sps = d.sps := by
  have key : ∀ r sh, Pitch.biasResult { d with framesAfterShift := d.framesAfterShift + 1 } ⟨f, I.periodicity⟩ = .ok (r, sh) → LockedTo I f r := by
    intro r sh e
    rw [Pitch.biasResult] at e
    simp only [hf, h.above, if_true] at e
    have one : LockedTo I f ⟨f, I.periodicity⟩ := ⟨rfl, Or.inl rfl⟩
    split at e
    · injection e with e; injection e with e1 _; rw [← e1]; exact one
    · split at e
      · split at e
        · match hm : toI32 (round (div d.current.frequency f)), e with
          | .error _, e => cases e
          | .ok m, e =>
            rw [PD.ok_bind] at e
            split at e
            · rename_i hc
              rw [Bool.and_eq_true, decide_eq_true_eq] at hc
              injection e with e; injection e with e1 _; rw [← e1]
              exact ⟨rfl, Or.inr ⟨m, hc.1, Or.inl rfl⟩⟩
            · injection e with e; injection e with e1 _; rw [← e1]; exact one
        · match hm : toI32 (round (div f d.current.frequency)), e with
          | .error _, e => cases e
          | .ok m, e =>
            rw [PD.ok_bind] at e
            split at e
            · rename_i hc
              rw [Bool.and_eq_true, decide_eq_true_eq] at hc
              injection e with e; injection e with e1 _; rw [← e1]
              exact ⟨rfl, Or.inr ⟨m, hc.1, Or.inr rfl⟩⟩
            · injection e with e; injection e with e1 _; rw [← e1]; exact one
      · injection e with e; injection e with e1 _; rw [← e1]; exact one
  rw [Pitch.bias] at e
  simp only [] at e
  match hr : Pitch.biasResult { d with framesAfterShift := d.framesAfterShift + 1 } ⟨f, I.periodicity⟩, e with
  | .error _, e => cases e
  | .ok (r, sh), e =>
    rw [PD.ok_bind] at e
    simp only [hf, h.onset, if_true] at e
    have hk := key _ _ hr
    split at e <;> (injection e with e; rw [← e]; exact ⟨hk, rfl, rfl⟩)

theorem update_locked {sps : Nat} {I : PInfo F} {f : F} (h : PitchPass sps I f) {d d' : Pitch F} {o : Bool} (hs : d.sps = sps)
    (hr : d.pd.zc.isReset = false) (hrd : d.pd.zc.ready = true) (hf : d.pd.fundamental = I) (e : d.update = .ok (d', o)) :
    o = true ∧ LockedTo I f d'.current ∧ d'.pd = d.pd ∧ d'.sps = sps := by
  have hcalc : d.calculateFrequency = f := by
    rw [Pitch.calculateFrequency, hf, h.per, hs, h.freq]; rfl
  rw [Pitch.update] at e
  simp only [hr, hrd, hf, h.pty, hcalc, h.onset, h.pos, h.notBelow, if_true, Bool.false_eq_true, if_false, Bool.and_self] at e
  split at e
  · injection e with e; injection e with e1 e2
    subst e1; exact ⟨e2.symm, ⟨rfl, Or.inl rfl⟩, rfl, hs⟩
  · match hb : d.bias ⟨f, I.periodicity⟩, e with
    | .error _, e => cases e
    | .ok r, e =>
      rw [PD.ok_bind] at e
      injection e with e; injection e with e1 e2
      subst e1
      obtain ⟨h1, h2, h3⟩ := bias_locked h hf hb
      exact ⟨e2.symm, h1, h2, by rw [h3, hs]⟩

section
variable {y : Nat → F} {hy : F} {N r w : Nat}

/-- One call on the train, whatever the pitch reported so far. -/
theorem pitch_lock_step {W k q sps : Nat} {b : Int} {I : PInfo F} {f : F} (hI : PitchPass sps I f) (ht : Tone y hy N r w)
    (hN : 2 * N ≤ W) (hacc0 : Accept y r w (lit 0)) (hacc : ∀ i, i < N → lt (lit 0) (y i) = true → Accept y r w (y i))
    (hrep : ∀ B, reported W y N r w B = I) {d d' : Pitch F} {o : Bool} (h : PTInv y hy N r w W k q b d.pd) (hs : d.sps = sps)
    (x : F) (hx : add x (div hy (lit 2)) = y q) (e : d.step x = .ok (d', o)) :
    d.pd.step x = .ok (d'.pd, o) ∧ (∃ b', PTInv y hy N r w W (nextK N k q) (nextQ N q) b' d'.pd) ∧
      d'.sps = sps ∧ if o then LockedTo I f d'.current else d'.current = d.current := by
  obtain ⟨p', ep, i, -, g, hr⟩ := pd_tone_step' ht h hN hacc0 hacc x hx
  rw [Pitch.step, ep, PD.ok_bind] at e
  by_cases hrd : p'.zc.ready = true
  · have hf := g hrd
    rw [hrep] at hf
    obtain ⟨ho, hl, hp, h2⟩ := update_locked hI (d := { d with pd := p' }) hs hr hrd hf e
    have hp' : d'.pd = p' := hp
    exact ⟨by rw [ep, hp', ho, hrd], ⟨_, by rw [hp']; exact i⟩, h2, by rw [ho]; exact hl⟩
  · have hrd' : p'.zc.ready = false := by simpa using hrd
    have e : Pitch.update { d with pd := p' } = .ok (d', o) := e
    rw [update_idle (d := { d with pd := p' }) hr hrd'] at e
    injection e with e; injection e with e1 e2
    subst e1; subst e2
    exact ⟨by rw [ep, hrd'], ⟨_, i⟩, hs, rfl⟩

theorem pitch_lock_run {W sps : Nat} {b : Int} {I : PInfo F} {f : F} (hI : PitchPass sps I f) (ht : Tone y hy N r w)
    (hN : 2 * N ≤ W) (hacc0 : Accept y r w (lit 0)) (hacc : ∀ i, i < N → lt (lit 0) (y i) = true → Accept y r w (y i))
    (hrep : ∀ B, reported W y N r w B = I) {d : Pitch F} (t0 : Nat) (h : PTInv y hy N r w W (t0 / N) (t0 % N) b d.pd) (hs : d.sps = sps)
    (x : Nat → F) (hx : ∀ t, add (x t) (div hy (lit 2)) = y t) (n : Nat) (d' : Pitch F) (ys : List Bool)
    (e : runC Pitch.step d ((List.range n).map fun i => x (t0 + i)) = .ok (d', ys)) :
    runC PD.step d.pd ((List.range n).map fun i => x (t0 + i)) = .ok (d'.pd, ys) ∧
      (∃ b', PTInv y hy N r w W ((t0 + n) / N) ((t0 + n) % N) b' d'.pd) ∧
      d'.sps = sps ∧ (true ∈ ys → LockedTo I f d'.current) := by
  have hNpos : 0 < N := by have := ht.rw; omega
  induction n generalizing d' ys with
  | zero =>
    injection e with e
    injection e with e1 e2
    subst e1; subst e2
    exact ⟨rfl, ⟨b, h⟩, hs, by simp⟩
  | succ n ih =>
    rw [range_snoc] at e
    obtain ⟨d1, o1, o2, e1, e2, e3⟩ := runC_split e
    obtain ⟨p1, ⟨b1, i1⟩, s1, g1⟩ := ih _ _ e1
    have hlast : ∃ o, d1.step (x (t0 + n)) = .ok (d', o) ∧ o2 = [o] := by
      rw [runC] at e2
      cases hs : d1.step (x (t0 + n)) with
      | error err => rw [hs] at e2; cases e2
      | ok rr =>
        obtain ⟨a, o⟩ := rr
        rw [hs] at e2
        injection e2 with e2
        injection e2 with e4 e5
        subst e4
        exact ⟨o, rfl, e5.symm⟩
    obtain ⟨o, e4, rfl⟩ := hlast
    obtain ⟨p2, ⟨b2, i2⟩, s2, g2⟩ := pitch_lock_step hI ht hN hacc0 hacc hrep i1 s1 (x (t0 + n)) (by rw [hx, tone_mod ht]) e4
    rw [(posK hNpos).1, (posK hNpos).2] at i2
    refine ⟨?_, ⟨b2, i2⟩, s2, ?_⟩
    · rw [range_snoc, e3]; exact runC_snoc p1 p2
    · rw [e3]
      cases o
      · simp only [Bool.false_eq_true, if_false] at g2
        simp only [List.mem_append, List.mem_singleton, Bool.true_eq_false, or_false]
        rw [g2]; exact g1
      · intro _
        simpa using g2

theorem pitch_pd_run' {W : Nat} {d d' : Pitch F} {xs : List F} {ys : List Bool} (h : PD.PInv W d.pd) (e : runC Pitch.step d xs = .ok (d', ys)) :
    PD.PInv W d'.pd ∧ d'.sps = d.sps ∧ ∃ zs, runC PD.step d.pd xs = .ok (d'.pd, zs) := by
  induction xs generalizing d ys with
  | nil => injection e with e; injection e with e1 e2; subst e1; exact ⟨h, rfl, [], rfl⟩
  | cons x xs ih =>
    rw [runC] at e
    rcases pitch_step h x with ⟨⟨d1, o⟩, e1, hr1, hs1, b, hb⟩ | e1
    · rw [e1, PD.ok_bind] at e
      cases e2 : runC Pitch.step d1 xs with
      | error err => simp only [bind, Except.bind, e2] at e; cases e
      | ok rr =>
        obtain ⟨d2, ys2⟩ := rr
        simp only [bind, Except.bind, e2] at e
        injection e with e
        injection e with e3 e4
        subst e3
        obtain ⟨i2, s2, zs, hz⟩ := ih hr1 e2
        refine ⟨i2, by rw [s2]; exact hs1, b :: zs, ?_⟩
        have hb' : d.pd.step x = .ok (d1.pd, b) := hb
        have hz' : runC PD.step d1.pd xs = .ok (d2.pd, zs) := hz
        rw [runC, hb', PD.ok_bind]
        simp only []
        rw [hz']
        rfl
    · rw [e1] at e; cases e

/-- Locking on, for every floating-point semantics. -/
theorem pitch_lock {W sps : Nat} {I : PInfo F} {f : F} (hI : PitchPass sps I f) {d1 : Pitch F} (P1 : PD.PInv W d1.pd) (hs : d1.sps = sps)
    (hhy : d1.pd.zc.hyst = hy) (ht : Tone y hy N r w) (hN : 2 * N ≤ W) (hmin : d1.pd.minPeriod ≤ N)
    (hacc0 : Accept (fun t => y (t + (r + w + 1))) (N - w - 1) w (lit 0))
    (hacc : ∀ i, i < N → lt (lit 0) (y (i + (r + w + 1))) = true → Accept (fun t => y (t + (r + w + 1))) (N - w - 1) w (y (i + (r + w + 1))))
    (hrep : ∀ B, reported W (fun t => y (t + (r + w + 1))) N (N - w - 1) w B = I)
    (x : Nat → F) (hx : ∀ t, add (x t) (div hy (lit 2)) = y t) (s T : Nat) (hT : 11 * W ≤ T) (d : Pitch F) (ys : List Bool)
    (hrun : runC Pitch.step d1 ((List.range T).map fun t => x (s + t)) = .ok (d, ys)) : LockedTo I f d.current := by
  have hr := ht.rotate
  obtain ⟨t, τ, hle, hyt, hlock⟩ := pd_locked P1 hhy ht hN hmin hacc0 hacc x hx s
  rw [show T = t + (T - t) by omega, range_split] at hrun
  obtain ⟨d2, o3, o4, e3, e4, -⟩ := runC_split hrun
  obtain ⟨-, s2, zs2, e3p⟩ := pitch_pd_run' P1 e3
  obtain ⟨b, hi⟩ := hlock _ _ e3p
  obtain ⟨x', hx', hxe⟩ := tone_extend hr (fun i => x (s + (t + i))) τ (fun i => by rw [hx]; exact hyt i)
  have hlist : ((List.range (T - t)).map fun i => x (s + (t + i))) = (List.range (T - t)).map fun i => x' (τ + i) :=
    List.map_congr_left fun i _ => (hxe i).symm
  rw [hlist] at e4
  obtain ⟨ep, -, -, g⟩ := pitch_lock_run hI hr hN hacc0 hacc hrep τ hi (by rw [s2, hs]) x' hx' (T - t) d o4 e4
  refine g ?_
  by_contra hm
  have := tone_live hr hN hacc0 hacc x' hx' τ b hi (T - t) _ _ ep hm
  omega
end
end

/-- **C98, in single precision, after any history.** A pitch detector that has processed any signal `xs` (every operation of the
detector rounded to binary32) is fed a pulse train from any point `s` of it on.  After eleven windows, and for as long as the train
lasts, the reported periodicity is exactly 1, and the reported frequency is `fl(sps / N)`, the correctly rounded quotient of the
sampling rate and the period, or this multiplied or divided by a whole number `m`, correctly rounded.  (See `C98_violation_octave` for
the whole number; it is assumed that the calls complete.) -/
theorem C98_lock_on_binary32_partial (lowest highest : F32) (sps : Nat) (hyst : ℚ) (hs : 0 < sps) (d0 : Pitch F32)
    (h0 : Pitch.mk' lowest highest sps ⟨hyst⟩ = .ok d0) (hw : d0.pd.zc.window ≤ 2 ^ 25) (xs : List F32) (x : Nat → ℚ) (N r w : Nat)
    (hx : PulseTrain32 x hyst N r w) (h1 : 2 * N ≤ d0.pd.zc.window) (h2 : d0.pd.minPeriod ≤ N)
    (hex : d0.pd.zc.window ≠ 320 ∨ N ≤ 128) (s T : Nat) (hT : 11 * d0.pd.zc.window ≤ T) (d : Pitch F32) (ys : List Bool)
    (hrun : runC Pitch.step d0 (xs ++ (List.range T).map fun t => (⟨x (s + t)⟩ : F32)) = .ok (d, ys)) :
    d.current.periodicity.val = 1 ∧
      (d.current.frequency.val = fl32 (fl32 sps / N) ∨
        ∃ m : Int, 1 < m ∧ (d.current.frequency.val = fl32 (fl32 (fl32 sps / N) * fl32 m) ∨
          d.current.frequency.val = fl32 (fl32 (fl32 sps / N) / fl32 m))) := by
  have ht := hx.tone
  have hNpos : 0 < N := by have := hx.fits; omega
  have hN24 : N ≤ 2 ^ 24 := by omega
  obtain ⟨h0', -, hsps⟩ := pitch_mk h0
  obtain ⟨hP, -, w0, -, hz⟩ := pd_mk h0' (by omega)
  obtain ⟨d1, o1, o2, e1, e2, -⟩ := runC_split hrun
  obtain ⟨P1', s1, zs1, e1p⟩ := pitch_pd_run' hP e1
  obtain ⟨P1, m1, zs1', z1⟩ := pd_run' hP e1p
  have hhy : d1.pd.zc.hyst = neg ⟨hyst⟩ := by rw [zc_run_hyst hP.bits.ok hP.inv z1, hz]; rfl
  have hrepr : ∀ i, Rep 24 (-149) (y32 x hyst i).val := fun i => fl32_lawful.rep _
  obtain ⟨a0, a1⟩ := tone_accept32 (fun i => hrepr (i + (r + w + 1))) ht.rotate
  have hoff : ∀ t, add (⟨x t⟩ : F32) (div (neg ⟨hyst⟩) (lit 2)) = y32 x hyst t := fun t => rfl
  have hr := ht.rotate
  have hhalf := half_fits (N := N) hP.bits.ok.even hP.bits.ok.ge h1 hex
  have hrep : ∀ B, reported d0.pd.zc.window (fun t => y32 x hyst (t + (r + w + 1))) N (N - w - 1) w B = ⟨⟨N⟩, ⟨1⟩⟩ := fun B => by
    rw [reported32 hN24, if_neg (half_differs hr.r1 hr.w1 hr.rw B _ hhalf)]
  obtain ⟨hp, hf⟩ := pitch_lock (pitchPass32 hs hNpos hN24) P1 (by rw [s1, hsps]) hhy ht h1 (by rw [m1]; exact h2) a0 a1 hrep
    (fun t => (⟨x t⟩ : F32)) hoff s T hT d o2 e2
  refine ⟨by rw [hp], ?_⟩
  rcases hf with hf | ⟨m, hm, hf | hf⟩
  · left; rw [hf]; rfl
  · right; exact ⟨m, hm, Or.inl (by rw [hf]; rfl)⟩
  · right; exact ⟨m, hm, Or.inr (by rw [hf]; rfl)⟩

/-! ## The hypotheses are met -/

/-- The detector for 128–2048 Hz at 8192 samples per second hears a rectangular wave of period 50 from its fifth sample on; the wave being
a pulse train, the calls complete (`C98_pulse_train_binary32`), and the theorem applies to the last `11 * 128` samples or more. -/
example : ∃ d0, Pitch.mk' (⟨128⟩ : F32) ⟨2048⟩ 8192 ⟨1 / 128⟩ = .ok d0 ∧ ∀ T, 11 * d0.pd.zc.window ≤ T →
    ∃ d ys, runC Pitch.step d0 ((List.range 5).map (fun t => (⟨rect 50 7 20 t⟩ : F32)) ++ (List.range T).map fun t => (⟨rect 50 7 20 (5 + t)⟩ : F32)) = .ok (d, ys) ∧
      d.current.periodicity.val = 1 := by
  obtain ⟨p0, e, hw, hm⟩ := mk32
  refine ⟨{ pd := p0, current := PitchInfo.zero, sps := 8192, framesAfterShift := 0 }, by rw [Pitch.mk', e]; rfl, fun T hT => ?_⟩
  obtain ⟨d, ys, e1, -⟩ := C98_pulse_train_binary32 ⟨128⟩ ⟨2048⟩ 8192 (1 / 128) (by norm_num) _ (by rw [Pitch.mk', e]; rfl) (by show p0.zc.window ≤ _; omega)
    (rect 50 7 20) 50 7 20 (rect_train32 (by omega) (by omega) (by omega)) (by show _ ≤ p0.zc.window; omega) (by show p0.minPeriod ≤ _; omega)
    (Or.inr (by norm_num)) (5 + T)
  rw [range_split] at e1
  refine ⟨d, ys, e1, ?_⟩
  exact (C98_lock_on_binary32_partial ⟨128⟩ ⟨2048⟩ 8192 (1 / 128) (by norm_num) _ (by rw [Pitch.mk', e]; rfl) (by show p0.zc.window ≤ _; omega) _
    (rect 50 7 20) 50 7 20 (rect_train32 (by omega) (by omega) (by omega)) (by show _ ≤ p0.zc.window; omega) (by show p0.minPeriod ≤ _; omega)
    (Or.inr (by norm_num)) 5 T hT d ys e1).1

end Verif
