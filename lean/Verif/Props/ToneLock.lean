import Verif.Proof.ToneLock
import Verif.Props.ToneFloat
/-!
# Property C97, after any history

The detector locks onto a pulse train within eleven windows, whatever it was fed before, and at whatever point of
a period the train starts.
-/
namespace Verif
open FloatOps

theorem runC_split {σ ι ο : Type} {step : σ → ι → C (σ × ο)} {s s2 : σ} {xs zs : List ι} {o : List ο}
    (h : runC step s (xs ++ zs) = .ok (s2, o)) : ∃ s1 o1 o2, runC step s xs = .ok (s1, o1) ∧ runC step s1 zs = .ok (s2, o2) ∧ o = o1 ++ o2 := by
  induction xs generalizing s o with
  | nil => exact ⟨s, [], o, rfl, h, rfl⟩
  | cons x xs ih =>
    rw [List.cons_append, runC] at h
    cases hs : step s x with
    | error e => rw [hs] at h; cases h
    | ok r =>
      obtain ⟨s', v⟩ := r
      rw [hs] at h
      cases hr : runC step s' (xs ++ zs) with
      | error e => simp only [bind, Except.bind, hr] at h; cases h
      | ok r2 =>
        obtain ⟨s'', ys⟩ := r2
        simp only [bind, Except.bind, hr] at h
        injection h with h
        injection h with h1 h2
        subst h1
        obtain ⟨s1, o1, o2, e1, e2, e3⟩ := ih hr
        refine ⟨s1, v :: o1, o2, ?_, e2, by rw [← h2, e3]; rfl⟩
        rw [runC, hs]
        simp only [bind, Except.bind, e1]
        rfl

theorem range_split {α : Type} (f : Nat → α) (a b : Nat) :
    (List.range (a + b)).map f = (List.range a).map f ++ (List.range b).map fun i => f (a + i) := by
  rw [List.range_add, List.map_append, List.map_map]; rfl

variable {F : Type} [FloatOps F]

theorem pd_run' {W : Nat} {p : PD F} (h : PD.PInv W p) {xs : List F} {p' : PD F} {ys : List Bool}
    (e : runC PD.step p xs = .ok (p', ys)) : PD.PInv W p' ∧ p'.minPeriod = p.minPeriod ∧ ∃ zs, runC ZC.step p.zc xs = .ok (p'.zc, zs) := by
  rcases pd_run h xs with ⟨r, e', a1, -, a2, a3⟩ | e'
  · rw [e] at e'; injection e' with e'; rw [← e'] at a1 a2 a3; exact ⟨a1, a2, a3⟩
  · rw [e] at e'; cases e'

theorem zseq_run {y : Nat → F} {hy : F} {W : Nat} {x : Nat → F} {Z : Nat → ZC F} (h : ZSeq y hy W x Z) (n : Nat) (z : ZC F) (zs : List Bool)
    (e : runC ZC.step (Z 0) ((List.range n).map x) = .ok (z, zs)) : z = Z n := by
  induction n generalizing z zs with
  | zero => injection e with e; injection e with e1 e2; exact e1.symm
  | succ n ih =>
    rw [range_split x n 1] at e
    obtain ⟨s1, o1, o2, e1, e2, -⟩ := runC_split e
    have := ih _ _ e1
    subst this
    have e3 : runC ZC.step (Z n) [x n] = .ok (Z (n + 1), [(Z (n + 1)).state]) := by
      rw [runC, h.step n]; rfl
    have e4 : (List.map (fun i => x (n + i)) (List.range 1)) = [x n] := rfl
    rw [e4, e3] at e2
    injection e2 with e2
    injection e2 with e2 _
    exact e2.symm

theorem zc_run_hyst {W : Nat} (hW : ZC.WOk W) {z z' : ZC F} (h : ZC.Inv W z) {xs : List F} {zs : List Bool}
    (e : runC ZC.step z xs = .ok (z', zs)) : z'.hyst = z.hyst := by
  induction xs generalizing z zs with
  | nil => injection e with e; injection e with e1 e2; rw [e1]
  | cons x xs ih =>
    obtain ⟨z1, e1, i1, h1, -⟩ := ZC.step_ok hW h x
    rw [runC, e1] at e
    cases hr : runC ZC.step z1 xs with
    | error err => simp only [bind, Except.bind, hr] at e; cases e
    | ok r2 =>
      obtain ⟨s'', o⟩ := r2
      simp only [bind, Except.bind, hr] at e
      injection e with e
      injection e with e2 e3
      subst e2
      rw [ih i1 hr, h1]

section
variable {y : Nat → F} {hy : F} {N r w : Nat}

/-- The same train, its period counted from the end of a pulse. -/
theorem Tone.rotate (ht : Tone y hy N r w) : Tone (fun t => y (t + (r + w + 1))) hy N (N - w - 1) w := by
  have hr1 := ht.r1
  have hw1 := ht.w1
  have hrw := ht.rw
  have wrap : ∀ i, N ≤ i → y i = y (i - N) := fun i hi => by
    have := ht.per (i - N)
    rw [Nat.sub_add_cancel hi] at this
    exact this
  refine ⟨fun t => ?_, by omega, hw1, by omega, ?_, fun i h1 h2 => ?_, ?_, fun i h1 h2 => ?_⟩
  · show y (t + N + (r + w + 1)) = _
    rw [show t + N + (r + w + 1) = t + (r + w + 1) + N by omega, ht.per]
  · show lt (lit 0) (y (N - w - 1 + (r + w + 1))) = true
    rw [wrap _ (by omega), show N - w - 1 + (r + w + 1) - N = r by omega]
    exact ht.up
  · show lt (lit 0) (y (i + (r + w + 1))) = true ∨ lt (y (i + (r + w + 1))) hy = false
    rw [wrap _ (by omega)]
    exact ht.high _ (by omega) (by omega)
  · show lt (y (N - w - 1 + w + (r + w + 1))) hy = true
    rw [wrap _ (by omega), show N - w - 1 + w + (r + w + 1) - N = r + w by omega]
    exact ht.down
  · show lt (lit 0) (y (i + (r + w + 1))) = false
    by_cases hi : i + (r + w + 1) < N
    · exact ht.low _ hi (by omega)
    · rw [wrap _ (by omega)]
      exact ht.low _ (by omega) (by omega)

/-- Locking on, for every floating-point semantics. -/
theorem pd_lock {W : Nat} {p1 : PD F} (hP : PD.PInv W p1) (hhy : p1.zc.hyst = hy) (ht : Tone y hy N r w) (hN : 2 * N ≤ W)
    (hmin : p1.minPeriod ≤ N) (hacc0 : Accept (fun t => y (t + (r + w + 1))) (N - w - 1) w (lit 0))
    (hacc : ∀ i, i < N → lt (lit 0) (y (i + (r + w + 1))) = true → Accept (fun t => y (t + (r + w + 1))) (N - w - 1) w (y (i + (r + w + 1))))
    (x : Nat → F) (hx : ∀ t, add (x t) (div hy (lit 2)) = y t) (s T : Nat) (hT : 11 * W ≤ T) (p : PD F) (ys : List Bool)
    (hrun : runC PD.step p1 ((List.range T).map fun i => x (s + i)) = .ok (p, ys)) :
    ∃ B, p.fundamental = reported W (fun t => y (t + (r + w + 1))) N (N - w - 1) w B := by
  have hW := hP.bits.ok
  have hge := hW.ge
  have hr1 := ht.r1
  have hw1 := ht.w1
  have hrw := ht.rw
  have hNpos : 0 < N := by omega
  have htr := ht.rotate
  -- to the end of a pulse
  obtain ⟨a, c, haN, hac⟩ : ∃ a c, a ≤ N ∧ s + a = c * N + (r + w + 1) := by
    have hd := Nat.div_add_mod s N
    have hm := Nat.mod_lt s hNpos
    rw [Nat.mul_comm] at hd
    by_cases hq : s % N ≤ r + w + 1
    · exact ⟨r + w + 1 - s % N, s / N, by omega, by omega⟩
    · refine ⟨N + (r + w + 1) - s % N, s / N + 1, by omega, ?_⟩
      rw [Nat.add_mul]; omega
  rw [show T = a + (T - a) by omega, range_split] at hrun
  obtain ⟨pa, oa, ob, ea, eb, -⟩ := runC_split hrun
  obtain ⟨Pa, ma, zsa, za⟩ := pd_run' hP ea
  have hya : pa.zc.hyst = hy := by rw [zc_run_hyst hW hP.inv za, hhy]
  -- the zero-crossing detector from there on
  obtain ⟨Z, hZ0, hZ⟩ := ZSeq.exists hW Pa.inv fun i => x (s + (a + i))
  have hy' : (fun t => add (x (s + (a + t))) (div pa.zc.hyst (lit 2))) = fun t => y (t + (r + w + 1)) := by
    funext t
    rw [hya, hx, show s + (a + t) = c * N + (t + (r + w + 1)) by omega, ht.at]
  rw [hy', hya] at hZ
  obtain ⟨t, τ, b, m, hd, gs, hle, hτ, hb, hi, hpk, hpu⟩ := zseq_lock hW hZ htr hN (by omega) hacc0 hacc
  -- locked at sample `a + t`
  rw [show T - a = t + (T - a - t) by omega, range_split] at eb
  obtain ⟨pb, oc, od, ec, ed, -⟩ := runC_split eb
  obtain ⟨Pb, mb, zsb, zb⟩ := pd_run' Pa ec
  rw [← hZ0] at zb
  have hzb := zseq_run hZ t _ _ zb
  have hPT : PTInv (fun t => y (t + (r + w + 1))) hy N (N - w - 1) w W (τ / N) (τ % N) b pb :=
    ⟨Pb, ⟨m, hd, gs, by rw [hzb]; exact hi⟩, hb, by rw [mb, ma]; exact hmin, by rw [hzb]; exact ⟨hpk, hpu⟩⟩
  have hx2 : ∀ u, add ((fun u => if u < τ then x (s + (a + u)) else x (s + (a + (t + (u - τ))))) u) (div hy (lit 2)) = (fun t => y (t + (r + w + 1))) u := by
    intro u
    simp only []
    split
    · have := hZ.off u
      exact this
    · rename_i hu
      have := hZ.off (t + (u - τ))
      refine this.trans ?_
      rw [← tone_mod htr (t + (u - τ)), ← tone_mod htr u, Nat.add_mod, ← hτ, ← Nat.add_mod, show τ + (u - τ) = u by omega]
  have hlist : ((List.range (T - a - t)).map fun i => x (s + (a + (t + i)))) =
      (List.range (T - a - t)).map fun i => (fun u => if u < τ then x (s + (a + u)) else x (s + (a + (t + (u - τ))))) (τ + i) := by
    apply List.map_congr_left
    intro i _
    simp only []
    rw [if_neg (by omega), show τ + i - τ = i by omega]
  rw [hlist] at ed
  obtain ⟨p', ys', b', e', -, -, -, g', -⟩ := tone_run htr hN hacc0 hacc _ hx2 τ b hPT (T - a - t)
  have hlive := tone_live htr hN hacc0 hacc _ hx2 τ b hPT (T - a - t) p' ys' e'
  rw [ed] at e'
  injection e' with e'
  injection e' with e1 e2
  subst e1
  have hmem : true ∈ ys' := by
    by_contra hc
    have := hlive hc
    omega
  obtain ⟨B, -, hB⟩ := g' hmem
  exact ⟨B, hB⟩
end

/-- **C97, after any history.**  A detector that has processed any signal `xs` is fed a pulse train from any point
`s` of it on.  After eleven windows (and for as long as the train lasts) the reported period is exactly `N`, with
periodicity 1.  (As the calls on a hostile signal can be undefined, see C24, it is assumed that the calls complete.) -/
theorem C97_lock_on (lowest highest : ℚ) (sps : Nat) (hyst : ℚ) (hl : 0 < lowest) (hh : 0 < highest) (p0 : PD ℚ)
    (h0 : PD.mk' lowest highest sps hyst = .ok p0) (hw : p0.zc.window ≤ 2 ^ 27) (xs : List ℚ) (x : Nat → ℚ) (N r w : Nat)
    (hx : PulseTrain x hyst N r w) (h1 : lowest ≤ (sps : ℚ) / N) (h2 : (sps : ℚ) / N ≤ highest)
    (hex : p0.zc.window ≠ 320 ∨ N ≤ 128) (s T : Nat) (hT : 11 * p0.zc.window ≤ T) (p : PD ℚ) (ys : List Bool)
    (hrun : runC PD.step p0 (xs ++ (List.range T).map fun t => x (s + t)) = .ok (p, ys)) :
    p.fundamental = ⟨N, 1⟩ := by
  have ht := hx.tone
  have hNpos : 0 < N := by have := hx.fits; omega
  obtain ⟨c1, c2⟩ := covers h0 hl hh hNpos h1 h2
  obtain ⟨hP, -, w0, -, hz⟩ := pd_mk h0 hw
  obtain ⟨p1, o1, o2, e1, e2, -⟩ := runC_split hrun
  obtain ⟨P1, m1, zs1, z1⟩ := pd_run' hP e1
  have hhy : p1.zc.hyst = neg hyst := by rw [zc_run_hyst hP.bits.ok hP.inv z1, hz]; rfl
  obtain ⟨a0, a1⟩ := tone_accept ht.rotate
  have hoff : ∀ t, add (x t) (div (neg hyst) (lit 2)) = x t + -hyst / 2 := fun t => rfl
  obtain ⟨B, hB⟩ := pd_lock P1 hhy ht c1 (by rw [m1]; exact c2) a0 a1 x hoff s T hT p o2 e2
  have hr := ht.rotate
  rw [hB, reported_rat, if_neg (half_differs hr.r1 hr.w1 hr.rw B _
    (half_fits (N := N) hP.bits.ok.even hP.bits.ok.ge c1 hex))]

/-- The same in single precision. -/
theorem C97_lock_on_binary32 (lowest highest : F32) (sps : Nat) (hyst : ℚ) (p0 : PD F32)
    (h0 : PD.mk' lowest highest sps ⟨hyst⟩ = .ok p0) (hw : p0.zc.window ≤ 2 ^ 25) (xs : List F32) (x : Nat → ℚ) (N r w : Nat)
    (hx : PulseTrain32 x hyst N r w) (h1 : 2 * N ≤ p0.zc.window) (h2 : p0.minPeriod ≤ N)
    (hex : p0.zc.window ≠ 320 ∨ N ≤ 128) (s T : Nat) (hT : 11 * p0.zc.window ≤ T) (p : PD F32) (ys : List Bool)
    (hrun : runC PD.step p0 (xs ++ (List.range T).map fun t => (⟨x (s + t)⟩ : F32)) = .ok (p, ys)) :
    p.fundamental.period.val = N ∧ p.fundamental.periodicity.val = 1 := by
  have ht := hx.tone
  obtain ⟨hP, -, w0, -, hz⟩ := pd_mk h0 (by omega)
  obtain ⟨p1, o1, o2, e1, e2, -⟩ := runC_split hrun
  obtain ⟨P1, m1, zs1, z1⟩ := pd_run' hP e1
  have hhy : p1.zc.hyst = neg ⟨hyst⟩ := by rw [zc_run_hyst hP.bits.ok hP.inv z1, hz]; rfl
  have hrep : ∀ i, Rounding.Rep 24 (-149) (y32 x hyst i).val := fun i => Rounding.fl32_lawful.rep _
  obtain ⟨a0, a1⟩ := tone_accept32 (fun i => hrep (i + (r + w + 1))) ht.rotate
  have hoff : ∀ t, add (⟨x t⟩ : F32) (div (neg ⟨hyst⟩) (lit 2)) = y32 x hyst t := fun t => rfl
  obtain ⟨B, hB⟩ := pd_lock P1 hhy ht h1 (by rw [m1]; exact h2) a0 a1 (fun t => (⟨x t⟩ : F32)) hoff s T hT p o2 e2
  have hr := ht.rotate
  rw [hB, reported32 (by omega), if_neg (half_differs hr.r1 hr.w1 hr.rw B _
    (half_fits (N := N) hP.bits.ok.even hP.bits.ok.ge h1 hex))]
  exact ⟨rfl, rfl⟩

/-! ## The hypotheses are met -/

/-- The detector for 100–1600 Hz at 6400 samples per second, after a burst at fifty times full scale, is fed a 320 Hz
train starting in the middle of a pulse: after 1408 samples it reports the period 20. -/
example : ∃ p0 p ys, PD.mk' (100 : ℚ) 1600 6400 (1 / 100) = .ok p0 ∧
    runC PD.step p0 ([50, 40, -50, 30, 50, -1, -40, 0] ++ (List.range 1408).map fun t => bumpy (5 + t)) = .ok (p, ys) ∧ p.fundamental = ⟨20, 1⟩ := by
  have hw : ((PD.mk' (100 : ℚ) 1600 6400 (1 / 100)).toOption.map (fun p => (p.zc.window,
      (runC PD.step p ([50, 40, -50, 30, 50, -1, -40, 0] ++ (List.range 1408).map fun t => bumpy (5 + t))).toOption.isSome))) = some (128, true) := by decide +kernel
  match e : PD.mk' (100 : ℚ) 1600 6400 (1 / 100) with
  | .error _ => rw [e] at hw; cases hw
  | .ok p0 =>
    rw [e] at hw
    have h1 : p0.zc.window = 128 := congrArg (fun o : Option (Nat × Bool) => (o.getD (0, false)).1) hw
    have h2 : (runC PD.step p0 ([50, 40, -50, 30, 50, -1, -40, 0] ++ (List.range 1408).map fun t => bumpy (5 + t))).toOption.isSome = true :=
      congrArg (fun o : Option (Nat × Bool) => (o.getD (0, false)).2) hw
    match e2 : runC PD.step p0 ([50, 40, -50, 30, 50, -1, -40, 0] ++ (List.range 1408).map fun t => bumpy (5 + t)) with
    | .error _ => rw [e2] at h2; cases h2
    | .ok (p, ys) =>
      refine ⟨p0, p, ys, rfl, e2, ?_⟩
      have := C97_lock_on 100 1600 6400 (1 / 100) (by norm_num) (by norm_num) p0 e (by omega) _ bumpy 20 3 5 bumpy_train
        (by norm_num) (by norm_num) (by omega) 5 1408 (by omega) p ys e2
      rw [this]; norm_num
end Verif
