import Verif.Props.ToneDualStuck
/-!
# Property C98: `dual_pitch_detector` locks on if the pitch is within an octave of its mean (exact arithmetic)
-/
namespace Verif
open FloatOps

/-- Nothing reported yet, or the running mean within an octave of `f`. -/
def DualNear (f : ℚ) (d : Dual ℚ) : Prop := d.first = true ∨ 0 < d.mean ∧ Octave d.mean f

theorem choose_near {sps N : Nat} (hspos : 0 < sps) (hN : 0 < N) {d : Dual ℚ} (h1 : d.pd1.current = exactPitch sps N)
    (h2 : d.pd2.current = exactPitch sps N) (h : DualNear ((sps : ℚ) / N) d) :
    d.choose.current = exactPitch sps N ∧ DualNear ((sps : ℚ) / N) d.choose := by
  have hpos : (0 : ℚ) < sps / N := div_pos (by exact_mod_cast hspos) (by exact_mod_cast hN)
  rw [Dual.choose]
  simp only [h1, h2, ite_self]
  by_cases hf : d.first = true
  · rw [if_pos hf]
    refine ⟨rfl, Or.inr ⟨hpos, ?_⟩⟩
    show (sps : ℚ) / N / 2 < sps / N ∧ (sps : ℚ) / N < 2 * (sps / N)
    constructor <;> linarith
  · rw [if_neg hf]
    obtain ⟨hm, ho⟩ := h.resolve_left hf
    have hin : d.withinOctave (exactPitch sps N).frequency = true := by
      rw [withinOctave_iff d hm]
      exact ho
    rw [if_pos hin]
    obtain ⟨o1, o2⟩ := ho
    refine ⟨rfl, Or.inr ?_⟩
    have hmean : (2 / 9 : ℚ) * (sps / N) + (1 - 2 / 9) * d.mean = 2 / 9 * (sps / N) + 7 / 9 * d.mean := by ring
    show 0 < (2 / 9 : ℚ) * (sps / N) + (1 - 2 / 9) * d.mean ∧ Octave ((2 / 9 : ℚ) * (sps / N) + (1 - 2 / 9) * d.mean) _
    rw [hmean]
    generalize (sps : ℚ) / N = f at *
    refine ⟨by linarith, ?_, ?_⟩ <;> linarith

/-- From a state with both pitches exact, and the mean within an octave: exact from the next analysis on. -/
theorem dual_near_run {hy : ℚ} {N W sps : Nat} {xf : Nat → ℚ} {d : Dual ℚ} (hspos : 0 < sps) (h : DualOn hy N W sps xf d)
    (hc1 : d.pd1.current = exactPitch sps N) (hc2 : d.pd2.current = exactPitch sps N) (hn : DualNear ((sps : ℚ) / N) d) (n : Nat) :
    ∃ d' ys y1, runC Dual.step d ((List.range n).map xf) = .ok (d', ys) ∧ ys.length = n ∧ DualOn hy N W sps (fun i => xf (n + i)) d' ∧
      d'.pd1.current = exactPitch sps N ∧ d'.pd2.current = exactPitch sps N ∧ DualNear ((sps : ℚ) / N) d' ∧
      runC PD.step d.pd1.pd ((List.range n).map xf) = .ok (d'.pd1.pd, y1) ∧
      (true ∈ ys → d'.current = exactPitch sps N) ∧ (true ∈ y1 → true ∈ ys) ∧ (true ∉ ys → d'.current = d.current) := by
  have hNpos := h.t1.pos
  induction n with
  | zero => exact ⟨d, [], [], rfl, rfl, by simpa using h, hc1, hc2, hn, rfl, by simp, by simp, fun _ => rfl⟩
  | succ n ih =>
    obtain ⟨d1, ys, y1, e1, l1, h1, p1, p2, nr, a1, c1, c2, c3⟩ := ih
    obtain ⟨d2, o1, o2, e2, h2, b1, b2, g1, g2, dm, m1, m2, m3, m4, m5, hd⟩ := dual_on_step hspos h1
    rw [p1, ite_self] at g1
    rw [p2, ite_self] at g2
    have hdm : DualNear ((sps : ℚ) / N) dm := by
      rw [DualNear, m4, m5]; exact nr
    obtain ⟨q1, q2⟩ := choose_near hspos hNpos (d := dm) (by rw [m1, g1]) (by rw [m2, g2]) hdm
    rw [indet_exact hspos hNpos g1, indet_exact hspos hNpos g2] at hd
    simp only [Bool.not_false, Bool.and_true] at hd
    refine ⟨d2, ys ++ [o1 || o2], y1 ++ [o1], ?_, by simp [l1], ?_, g1, g2, ?_, ?_, ?_, ?_, ?_⟩
    · rw [range_snoc]; exact runC_snoc e1 e2
    · have : (fun i => xf (n + 1 + i)) = fun i => xf (n + (i + 1)) := by funext i; congr 1; omega
      rw [this]; exact h2
    · rw [hd]; split
      · exact q2
      · exact hdm
    · rw [range_snoc]; exact runC_snoc a1 b1
    · intro ht
      rw [hd]; split
      · exact q1
      · rename_i ho
        rw [m3]
        rw [List.mem_append, List.mem_singleton] at ht
        rcases ht with ht | ht
        · exact c1 ht
        · exact absurd ht.symm ho
    · intro ht
      rw [List.mem_append, List.mem_singleton] at ht ⊢
      rcases ht with ht | ht
      · exact Or.inl (c2 ht)
      · rw [← ht]; exact Or.inr rfl
    · intro ht
      rw [List.mem_append, List.mem_singleton, not_or] at ht
      rw [hd, if_neg (fun h => ht.2 h.symm), m3]
      exact c3 ht.1

/-- **C98, dual detector.** A dual detector that has processed any signal `hist` is fed a train `x` of pulses of period `N`, whose
negation is a train of pulses too, for at least ten windows.  If then both detectors inside report the exact pitch `sps / N`, and it is
strictly within an octave of the running mean of the dual detector (or nothing was reported yet), then for as long as the train goes
on, every call succeeds, and the dual detector reports exactly `sps / N` with periodicity 1 from the next analysis on, which is at
most a window and a half away.  (What is missing to the full property is false: `C98_violation_octave`, `C98_violation_dual`.) -/
theorem C98_dual_lock_on_partial (lowest highest : ℚ) (sps : Nat) (hyst : ℚ) (hl : 0 < lowest) (hh : 0 < highest) (d0 : Dual ℚ)
    (h0 : Dual.mk' lowest highest sps hyst = .ok d0) (hw : d0.pd1.pd.zc.window ≤ 2 ^ 27) (hist : List ℚ) (x x' : Nat → ℚ) (N r w r' w' s s' : Nat)
    (hx : PulseTrain x hyst N r w) (hx' : PulseTrain x' hyst N r' w') (hneg : ∀ i, x' (s' + i) = -x (s + i))
    (h1 : lowest ≤ (sps : ℚ) / N) (h2 : (sps : ℚ) / N ≤ highest) (hex : d0.pd1.pd.zc.window ≠ 320 ∨ N ≤ 128)
    (T : Nat) (hT : 10 * d0.pd1.pd.zc.window ≤ T) (d1 : Dual ℚ) (o1 : List Bool)
    (hrun : runC Dual.step d0 (hist ++ (List.range T).map fun t => x (s + t)) = .ok (d1, o1))
    (hc1 : d1.pd1.current = ⟨(sps : ℚ) / N, 1⟩) (hc2 : d1.pd2.current = ⟨(sps : ℚ) / N, 1⟩)
    (hm : d1.first = true ∨ d1.mean / 2 < (sps : ℚ) / N ∧ (sps : ℚ) / N < 2 * d1.mean) (n : Nat) :
    ∃ d ys, runC Dual.step d1 ((List.range n).map fun t => x (s + (T + t))) = .ok (d, ys) ∧ ys.length = n ∧
      d.current = (if true ∈ ys then ⟨(sps : ℚ) / N, 1⟩ else d1.current) ∧ (3 * d0.pd1.pd.zc.window ≤ 2 * n → true ∈ ys) := by
  have hNpos : 0 < N := by have := hx.fits; omega
  obtain ⟨k1, k2, k3, k4, k5⟩ := dual_mk h0
  obtain ⟨q1, q2, q3⟩ := pitch_mk k1
  obtain ⟨c1, c2⟩ := covers q1 hl hh hNpos h1 h2
  obtain ⟨hP, -, w0, -, hz⟩ := pd_mk q1 hw
  have hspos : 0 < sps := by
    rcases Nat.eq_zero_or_pos sps with h | h
    · rw [h] at h1; simp at h1; linarith
    · exact h
  have i0 : DualInv d0.pd1.pd.zc.window d0 := by
    obtain ⟨W, i⟩ := dualReach_inv ⟨d0, [], [], h0, hw, rfl⟩ hl hh
    exact ⟨hP, by rw [k2]; exact hP, i.c1, i.c2, i.mean, i.cur⟩
  obtain ⟨d2, o2, o3, e1, e2, -⟩ := runC_split hrun
  obtain ⟨i1, ⟨z1, g1⟩, ⟨z2, g2⟩, m1, m2, s1, s2⟩ := dual_zc_run i0 e1
  have hy1 : d2.pd1.pd.zc.hyst = -hyst := by rw [zc_run_hyst hP.bits.ok hP.inv g1, hz]; rfl
  have hy2 : d2.pd2.pd.zc.hyst = -hyst := by
    rw [k2] at g2
    rw [zc_run_hyst hP.bits.ok hP.inv g2, hz]; rfl
  obtain ⟨l1, l2⟩ := dual_locked i1 hy1 hy2 hx hx' hneg c1 (by rw [m1]; exact c2) (by rw [m2, k2]; exact c2) hex hT e2
  obtain ⟨i3, -, -, -, -, s3, s4⟩ := dual_zc_run i1 e2
  have hon : DualOn (-hyst) N d0.pd1.pd.zc.window sps (fun i => x (s + (T + i))) d1 :=
    ⟨l1, l2, by rw [s3, s1, q3], by rw [s4, s2, k2, q3], Or.inr hc1, Or.inr hc2⟩
  have hnear : DualNear ((sps : ℚ) / N) d1 := by
    rcases hm with hm | hm
    · exact Or.inl hm
    · exact Or.inr ⟨i3.mean, hm⟩
  obtain ⟨d, ys, y1, e, l, -, -, -, -, a, b1, b2, b3⟩ := dual_near_run hspos hon hc1 hc2 hnear n
  refine ⟨d, ys, e, l, ?_, fun hn => ?_⟩
  · split
    · rename_i ht; exact b1 ht
    · rename_i ht; exact b3 ht
  · apply b2
    by_contra hno
    have := l1.live n y1 a hno
    omega

theorem dualLock_eval : ((Dual.mk' (100 : ℚ) 1600 6400 (1 / 100)).toOption.bind fun d =>
    (runC Dual.step d ((List.range 1280).map (rect 50 12 25))).toOption.map fun r =>
        (d.pd1.pd.zc.window, r.1.first, r.1.mean,
          [r.1.pd1.current.frequency, r.1.pd1.current.periodicity, r.1.pd2.current.frequency, r.1.pd2.current.periodicity])) =
      some (128, false, 128, [128, 1, 128, 1]) := by decide +kernel

theorem rect_half (t : Nat) : rect 50 12 25 (25 + t) = -rect 50 12 25 (0 + t) := by
  rw [rect, rect, inPulse, inPulse]
  simp only [decide_eq_true_eq, Nat.zero_add]
  have h1 : (25 + t) % 50 = if t % 50 < 25 then t % 50 + 25 else t % 50 - 25 := by split <;> omega
  rw [h1]
  have h2 := Nat.mod_lt t (by omega : 0 < 50)
  by_cases h3 : 12 ≤ t % 50 ∧ t % 50 < 12 + 25
  · rw [if_pos h3, if_neg (by split <;> omega)]
  · rw [if_neg h3, if_pos (by split <;> omega), neg_neg]

/-- The hypotheses are met: a dual detector for 100–1600 Hz at 6400 samples per second, fed a 128 Hz square wave, reports exactly
128 Hz from sample 1472 on, for ever. -/
example : ∃ d0, Dual.mk' (100 : ℚ) 1600 6400 (1 / 100) = .ok d0 ∧ ∀ n, 192 ≤ n →
    ∃ d ys, runC Dual.step d0 ((List.range (1280 + n)).map (rect 50 12 25)) = .ok (d, ys) ∧ d.current = ⟨128, 1⟩ := by
  have hx : PulseTrain (rect 50 12 25) (1 / 100) 50 12 25 := rect_train (by omega) (by omega) (by omega) (by norm_num) (by norm_num)
  obtain ⟨d0, e0, hev⟩ := toOption_bind_some dualLock_eval
  obtain ⟨⟨d1, o1⟩, e1, hev⟩ := toOption_map_some hev
  simp only [Prod.mk.injEq, List.cons.injEq, and_true] at hev e1
  obtain ⟨hW, hfirst, hmean, hf1, hp1, hf2, hp2⟩ := hev
  refine ⟨d0, e0, fun n hn => ?_⟩
  have e2 : runC Dual.step d0 ([] ++ (List.range 1280).map fun t => rect 50 12 25 (0 + t)) = .ok (d1, o1) := by simpa using e1
  have hc1 : d1.pd1.current = ⟨((6400 : Nat) : ℚ) / (50 : Nat), 1⟩ := by
    have : d1.pd1.current = ⟨d1.pd1.current.frequency, d1.pd1.current.periodicity⟩ := rfl
    rw [this, hf1, hp1]; norm_num
  have hc2 : d1.pd2.current = ⟨((6400 : Nat) : ℚ) / (50 : Nat), 1⟩ := by
    have : d1.pd2.current = ⟨d1.pd2.current.frequency, d1.pd2.current.periodicity⟩ := rfl
    rw [this, hf2, hp2]; norm_num
  obtain ⟨d, ys, e, l, c, lv⟩ := C98_dual_lock_on_partial 100 1600 6400 (1 / 100) (by norm_num) (by norm_num) d0 e0 (by omega) [] _ _ 50 12 25 12 25 0 25
    hx hx rect_half (by norm_num) (by norm_num) (by omega) 1280 (by omega) d1 o1 e2 hc1 hc2 (Or.inr (by rw [hmean]; norm_num)) n
  refine ⟨d, o1 ++ ys, ?_, ?_⟩
  · rw [range_split]
    refine runC_append e1 ?_
    simpa using e
  · rw [c, if_pos (lv (by omega))]; norm_num
end Verif
