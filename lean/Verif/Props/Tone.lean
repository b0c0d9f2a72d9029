import Verif.Proof.ToneAnalysis
import Verif.Props.Pulses
/-!
# Property C97: `period_detector` measures the period of a periodic signal exactly

The signal is any pulse train: periodic, one pulse per period (in the sense of the comparator with thresholds
`±hysteresis/2`), of arbitrary shape otherwise.
-/
namespace Verif
open FloatOps

/-! ## The specification -/

/-- The signal `x 0, x 1, …` has period `N`, and in each period it stays at or below `hyst/2` for the first `r` samples,
rises above `hyst/2` at sample `r`, does not fall below `-hyst/2` before sample `r + w`, where it does, and stays at or
below `hyst/2` from there on. -/
structure PulseTrain (x : Nat → ℚ) (hyst : ℚ) (N r w : Nat) : Prop where
  periodic : ∀ t, x (t + N) = x t
  gap : 1 ≤ r
  pulse : 1 ≤ w
  fits : r + w < N
  low : ∀ i, i < r → x i ≤ hyst / 2
  rise : hyst / 2 < x r
  high : ∀ i, r ≤ i → i < r + w → -(hyst / 2) ≤ x i
  fall : x (r + w) < -(hyst / 2)
  low2 : ∀ i, r + w ≤ i → i < N → x i ≤ hyst / 2

theorem runC_append {σ ι ο : Type} {step : σ → ι → C (σ × ο)} {s s1 s2 : σ} {xs zs : List ι} {o1 o2 : List ο}
    (h1 : runC step s xs = .ok (s1, o1)) (h2 : runC step s1 zs = .ok (s2, o2)) : runC step s (xs ++ zs) = .ok (s2, o1 ++ o2) := by
  induction xs generalizing s o1 with
  | nil =>
    injection h1 with h1
    injection h1 with h1 h3
    rw [h1, ← h3]; exact h2
  | cons x xs ih =>
    rw [runC] at h1
    rw [List.cons_append, runC]
    cases hs : step s x with
    | error e => rw [hs] at h1; cases h1
    | ok r =>
      obtain ⟨s', y⟩ := r
      rw [hs] at h1
      cases hr : runC step s' xs with
      | error e => simp only [bind, Except.bind, hr] at h1; cases h1
      | ok r2 =>
        obtain ⟨s'', ys⟩ := r2
        simp only [bind, Except.bind, hr] at h1
        injection h1 with h1
        injection h1 with h1 h3
        subst h1
        simp only [bind, Except.bind, ih hr]
        rw [← h3]; rfl

variable {F : Type} [FloatOps F]

/-! ## The run, for every floating-point semantics -/

section
variable {y : Nat → F} {hy : F} {N r w : Nat}

/-- The position in the period. -/
theorem posK {N t : Nat} (h : 0 < N) : nextK N (t / N) (t % N) = (t + 1) / N ∧ nextQ N (t % N) = (t + 1) % N := by
  have hd := Nat.div_add_mod t N
  have hm := Nat.mod_lt t h
  rw [nextK, nextQ]
  split
  · rename_i hc
    have : t + 1 = N * (t / N + 1) := by rw [Nat.mul_add]; omega
    rw [this, Nat.mul_div_cancel_left _ h, Nat.mul_mod_right]
    exact ⟨rfl, rfl⟩
  · have : t + 1 = (t % N + 1) + N * (t / N) := by omega
    have e1 : (t + 1) / N = t / N := by
      rw [this, Nat.add_mul_div_left _ _ h, Nat.div_eq_of_lt (by omega)]; omega
    have e2 : (t + 1) % N = t % N + 1 := by
      rw [this, Nat.add_mul_mod_self_left, Nat.mod_eq_of_lt (by omega)]
    rw [e1, e2]
    exact ⟨rfl, rfl⟩

theorem tone_mod (ht : Tone y hy N r w) (t : Nat) : y (t % N) = y t := by
  have := ht.at (t / N) (t % N)
  rw [← this, Nat.mul_comm, Nat.div_add_mod]

/-- From the start of the tone: where the current window starts, and what was reported last. -/
theorem tone_run {W : Nat} {p0 : PD F} (ht : Tone y hy N r w) (hN : 2 * N ≤ W)
    (hacc0 : Accept y r w (lit 0)) (hacc : ∀ i, i < N → lt (lit 0) (y i) = true → Accept y r w (y i))
    (x : Nat → F) (hx : ∀ t, add (x t) (div hy (lit 2)) = y t) (t0 : Nat) (b0 : Int)
    (h0 : PTInv y hy N r w W (t0 / N) (t0 % N) b0 p0) (n : Nat) :
    ∃ p ys b, runC PD.step p0 ((List.range n).map fun i => x (t0 + i)) = .ok (p, ys) ∧ ys.length = n ∧
      PTInv y hy N r w W ((t0 + n) / N) ((t0 + n) % N) b p ∧
      (true ∉ ys → p.fundamental = p0.fundamental ∧ (p0.zc.ready = false → p.zc.ready = false ∧ b = b0)) ∧
      (true ∈ ys → ∃ B : Nat, (∃ j : Nat, (B : Int) = b0 + j * (W / 2 : Nat)) ∧ p.fundamental = reported W y N r w B) ∧
      (∃ j : Nat, b = b0 + j * (W / 2 : Nat)) := by
  have hNpos : 0 < N := by have := ht.rw; omega
  induction n generalizing t0 b0 p0 with
  | zero => exact ⟨p0, [], b0, rfl, rfl, by simpa using h0, fun _ => ⟨rfl, fun hh => ⟨hh, rfl⟩⟩, fun hh => by simp at hh, 0, by simp⟩
  | succ n ih =>
    obtain ⟨p1, e1, i1, f1, g1⟩ := pd_tone_step ht h0 hN hacc0 hacc (x t0) (by rw [hx, tone_mod ht])
    rw [(posK hNpos).1, (posK hNpos).2] at i1
    obtain ⟨p2, ys, b, e2, l2, i2, f2, g2, j2⟩ := ih (t0 + 1) _ i1
    have hj1 : ∃ j : Nat, (b0 + ((if p0.zc.ready then W / 2 else 0 : Nat) : Int)) = b0 + j * (W / 2 : Nat) := by
      by_cases hr : p0.zc.ready = true
      · exact ⟨1, by rw [if_pos hr]; omega⟩
      · exact ⟨0, by rw [if_neg hr]; omega⟩
    obtain ⟨j1, hj1⟩ := hj1
    rw [hj1] at g1 g2 j2 f2 i1
    have hadd : ∀ j : Nat, b0 + (j1 : Int) * (W / 2 : Nat) + j * (W / 2 : Nat) = b0 + ((j1 + j : Nat) : Int) * (W / 2 : Nat) := by
      intro j; push_cast; ring
    refine ⟨p2, p1.zc.ready :: ys, b, ?_, by simp [l2], by rw [show t0 + (n + 1) = t0 + 1 + n by omega]; exact i2, ?_, ?_, ?_⟩
    · rw [List.range_succ_eq_map, List.map_cons, List.map_map, runC, Nat.add_zero, e1]
      have hf : (fun i => x (t0 + i)) ∘ Nat.succ = fun i => x (t0 + 1 + i) := by
        funext i; show x (t0 + (i + 1)) = _; congr 1; omega
      rw [hf]
      show (runC PD.step p1 _ >>= _) = _
      rw [e2]; rfl
    · intro hn
      rw [List.mem_cons, not_or] at hn
      have hr1 : p1.zc.ready = false := by
        rcases hb : p1.zc.ready with _ | _
        · rfl
        · rw [hb] at hn; exact absurd rfl hn.1
      obtain ⟨a1, a2⟩ := f2 hn.2
      refine ⟨by rw [a1, f1 hr1], fun hr0 => ⟨(a2 hr1).1, ?_⟩⟩
      rw [(a2 hr1).2, ← hj1, hr0]; simp
    · intro hm
      by_cases hm2 : true ∈ ys
      · obtain ⟨B, ⟨j, hB⟩, hr⟩ := g2 hm2
        exact ⟨B, ⟨j1 + j, by rw [hB]; exact hadd j⟩, hr⟩
      · have hr1 : p1.zc.ready = true := by
          rcases List.mem_cons.1 hm with h3 | h3
          · exact h3.symm
          · exact absurd h3 hm2
        refine ⟨(b0 + (j1 : Int) * (W / 2 : Nat)).toNat, ⟨j1, ?_⟩, by rw [(f2 hm2).1, g1 hr1]⟩
        have := i1.b0
        omega
    · obtain ⟨j, hj⟩ := j2
      exact ⟨j1 + j, by rw [hj]; exact hadd j⟩

/-- A stretch of calls without an analysis is at most `W + w` long. -/
theorem tone_live {W : Nat} {p0 : PD F} (ht : Tone y hy N r w) (hN : 2 * N ≤ W)
    (hacc0 : Accept y r w (lit 0)) (hacc : ∀ i, i < N → lt (lit 0) (y i) = true → Accept y r w (y i))
    (x : Nat → F) (hx : ∀ t, add (x t) (div hy (lit 2)) = y t) (t0 : Nat) (b0 : Int)
    (h0 : PTInv y hy N r w W (t0 / N) (t0 % N) b0 p0) (n : Nat) (p : PD F) (ys : List Bool)
    (hrun : runC PD.step p0 ((List.range n).map fun i => x (t0 + i)) = .ok (p, ys)) (hno : true ∉ ys) : n ≤ W + w := by
  have hge := h0.pinv.bits.ok.ge
  have hNpos : 0 < N := by have := ht.rw; omega
  have key : ∀ {W : Nat} {t n : Nat} {b : Int} {p : PD F}, PTInv y hy N r w W ((t + n) / N) ((t + n) % N) b p → b ≤ t → n ≤ W + w := by
    intro W t n b p h hbt
    obtain ⟨m, hd, gs, h1⟩ := h.t
    have hb := h1.hb
    have hv := h1.vf
    have hd := Nat.div_add_mod (t + n) N
    rw [Nat.mul_comm] at hd
    have : (((t + n) / N : Nat) : Int) * N + ((t + n) % N : Nat) = (t + n : Nat) := by exact_mod_cast hd
    omega
  cases n with
  | zero => omega
  | succ n =>
    obtain ⟨p1, e1, i1, -, -⟩ := pd_tone_step ht h0 hN hacc0 hacc (x t0) (by rw [hx, tone_mod ht])
    rw [(posK hNpos).1, (posK hNpos).2] at i1
    obtain ⟨p2, ys2, b, e2, l2, i2, f2, -, -⟩ := tone_run ht hN hacc0 hacc x hx (t0 + 1) _ i1 n
    have hrun' : runC PD.step p0 ((List.range (n + 1)).map fun i => x (t0 + i)) = .ok (p2, p1.zc.ready :: ys2) := by
      rw [List.range_succ_eq_map, List.map_cons, List.map_map, runC, Nat.add_zero, e1]
      have hf : (fun i => x (t0 + i)) ∘ Nat.succ = fun i => x (t0 + 1 + i) := by
        funext i; show x (t0 + (i + 1)) = _; congr 1; omega
      rw [hf]
      show (runC PD.step p1 _ >>= _) = _
      rw [e2]; rfl
    rw [hrun] at hrun'
    injection hrun' with hrun'
    injection hrun' with ha hb
    subst hb
    rw [List.mem_cons, not_or] at hno
    have hr1 : p1.zc.ready = false := by
      rcases hb : p1.zc.ready with _ | _
      · rfl
      · rw [hb] at hno; exact absurd rfl hno.1
    obtain ⟨-, a2⟩ := f2 hno.2
    obtain ⟨-, hbeq⟩ := a2 hr1
    rw [show t0 + 1 + n = t0 + (n + 1) by omega] at i2
    refine key i2 ?_
    rw [hbeq]
    -- frame 0 of the window is not after the start of the stretch
    obtain ⟨m, hd, gs, h1⟩ := h0.t
    have hb := h1.hb
    have hd := Nat.div_add_mod t0 N
    rw [Nat.mul_comm] at hd
    have htt : ((t0 / N : Nat) : Int) * N + (t0 % N : Nat) = (t0 : Nat) := by exact_mod_cast hd
    by_cases hr : p0.zc.ready = true
    · have : p0.zc.vframe = p0.zc.frame + (W / 2 : Nat) := by simp [ZC.vframe, hr, h1.inv.window]
      rw [if_pos hr]
      omega
    · have : p0.zc.vframe = p0.zc.frame := by simp [ZC.vframe, hr]
      rw [if_neg hr]
      omega

end

/-! ## Exact arithmetic -/

theorem PulseTrain.tone {x : Nat → ℚ} {hyst : ℚ} {N r w : Nat} (h : PulseTrain x hyst N r w) :
    Tone (fun t => x t + -hyst / 2) (-hyst) N r w := by
  have lt_iff : ∀ a b : ℚ, (lt a b = true ↔ a < b) := fun a b => by simp [FloatOps.lt]
  have lt_iff' : ∀ a b : ℚ, (lt a b = false ↔ b ≤ a) := fun a b => by simp [FloatOps.lt]
  have l0 : (lit 0 : ℚ) = 0 := rfl
  refine ⟨fun t => ?_, h.gap, h.pulse, h.fits, ?_, fun i h1 h2 => ?_, ?_, fun i h1 h2 => ?_⟩
  · show x (t + N) + _ = _; rw [h.periodic]
  · rw [lt_iff, l0]; have := h.rise; linarith
  · right; rw [lt_iff']; have := h.high i h1 h2; linarith
  · rw [lt_iff]; have := h.fall; linarith
  · rw [lt_iff', l0]
    rcases h2 with h2 | h2
    · have := h.low i h2; linarith
    · have := h.low2 i h2 h1; linarith

theorem pk_pos (y : Nat → ℚ) (r : Nat) (h : 0 < y r) (n : Nat) : 0 < pk y r n ∧ y r ≤ pk y r n ∧ ∀ i, i < n → 0 < y (r + 1 + i) → y (r + 1 + i) ≤ pk y r n := by
  induction n with
  | zero => exact ⟨h, le_refl _, fun i hi => by omega⟩
  | succ n ih =>
    obtain ⟨h1, h2, h3⟩ := ih
    rw [pk]
    by_cases hp : 0 < y (r + 1 + n)
    · rw [if_pos (by simpa [FloatOps.lt, FloatOps.lit] using hp), rat_max]
      refine ⟨lt_of_lt_of_le h1 (le_max_right _ _), h2.trans (le_max_right _ _), fun i hi hpi => ?_⟩
      rcases Nat.lt_succ_iff_lt_or_eq.1 hi with hlt | rfl
      · exact (h3 i hlt hpi).trans (le_max_right _ _)
      · exact le_max_left _ _
    · rw [if_neg (by simpa [FloatOps.lt, FloatOps.lit] using hp)]
      refine ⟨h1, h2, fun i hi hpi => ?_⟩
      rcases Nat.lt_succ_iff_lt_or_eq.1 hi with hlt | rfl
      · exact h3 i hlt hpi
      · exact absurd hpi hp

/-- In exact arithmetic every pulse of the train reaches the threshold. -/
theorem tone_accept {y : Nat → ℚ} {hy : ℚ} {N r w : Nat} (ht : Tone y hy N r w) :
    Accept y r w (lit 0) ∧ ∀ i, i < N → lt (lit 0) (y i) = true → Accept y r w (y i) := by
  have hup : 0 < y r := by have := ht.up; simpa [FloatOps.lt, FloatOps.lit] using this
  obtain ⟨h1, h2, h3⟩ := pk_pos y r hup (w - 1)
  have acc : ∀ v : ℚ, 0 ≤ v → v ≤ pk y r (w - 1) → Accept y r w v := by
    intro v hv hle
    show decide (v * (6 / 10) ≤ pk y r (w - 1)) = true
    rw [decide_eq_true_eq]
    linarith
  refine ⟨acc 0 (le_refl _) h1.le, fun i hi hpos => ?_⟩
  have hpos' : 0 < y i := by simpa [FloatOps.lt, FloatOps.lit] using hpos
  apply acc _ hpos'.le
  by_cases hin : r ≤ i ∧ i < r + w
  · by_cases hir : i = r
    · rw [hir]; exact h2
    · have := h3 (i - r - 1) (by omega)
      rw [show r + 1 + (i - r - 1) = i by omega] at this
      exact this hpos'
  · have := ht.low i hi (by omega)
    rw [hpos] at this; cases this

/-- The freshly constructed detector at the start of the tone. -/
theorem fresh_inv {lowest highest : F} {sps : Nat} {hyst : F} {p0 : PD F} (h0 : PD.mk' lowest highest sps hyst = .ok p0)
    (hw : p0.zc.window ≤ 2 ^ 27) {y : Nat → F} {N r w : Nat} (ht : Tone y (neg hyst) N r w) (hmin : p0.minPeriod ≤ N)
    (hacc0 : Accept y r w (lit 0)) : PTInv y (neg hyst) N r w p0.zc.window (0 / N) (0 % N) 0 p0 ∧ p0.fundamental = PInfo.default := by
  obtain ⟨i0, -, w0, hw0, hz⟩ := pd_mk h0 hw
  have hrw := ht.rw
  have hge := i0.bits.ok.ge
  have hfund : p0.fundamental = PInfo.default := by
    rw [PD.mk'] at h0
    match hw' : toU64 (mul (mul (div (lit 1) lowest) (lit 2)) (ofInt sps) : F), h0 with
    | .error _, h => cases h
    | .ok w, h =>
      match toU64 (mul (div (lit 1) highest) (ofInt sps) : F), h with
      | .error _, h => cases h
      | .ok mp, h =>
        match toI32 (div highest lowest : F), h with
        | .error _, h => cases h
        | .ok r, h =>
          simp only [bind, Except.bind] at h
          split at h
          · cases h
          · injection h with h
            rw [← h]
  have hnp : ¬ InP r w 0 := by rw [InP]; omega
  have hcl : cl r w 0 0 = 0 := by rw [cl, if_neg (by omega)]
  have hedges : p0.zc.edges = [] := by rw [hz]; simp [ZC.edges, ZC.mk']
  rw [Nat.zero_div, Nat.zero_mod]
  refine ⟨⟨i0, ⟨0, [], [], ?_⟩, le_refl _, hmin, ?_⟩, hfund⟩
  · refine ⟨i0.inv, by rw [hz]; rfl, fun h => by omega, by omega, ?_, ?_, ?_, fun h => absurd h hnp, ?_, ?_⟩
    · rw [hz]; simp [ZC.mk', hnp]
    · intro _; have : p0.zc.frame = 0 := by rw [hz]; rfl
      omega
    · have : p0.zc.vframe = 0 := by rw [hz]; simp [ZC.vframe, ZC.mk']
      omega
    · have : p0.zc.vframe = 0 := by rw [hz]; simp [ZC.vframe, ZC.mk']
      rw [this]; simp
    · rw [hedges]
      have := ei_reset (y := y) (N := N) (r := r) (w := w) (k := 0) (q := 0) hnp hrw
      rw [hcl] at this
      simpa using this
  · have h1 : p0.zc.peak = lit 0 := by rw [hz]; rfl
    have h2 : p0.zc.peakUpdate = lit 0 := by rw [hz]; rfl
    rw [h1, h2]; exact ⟨hacc0, hacc0⟩

theorem reported_rat {W : Nat} {y : Nat → ℚ} {N r w B : Nat} : reported W y N r w B =
    if ∀ k, k < PD.cmpLen W → inPulse N r w (B + k) = inPulse N r w (B + (k + N / 2)) then ⟨-1, 0⟩ else ⟨N, 1⟩ := by
  rw [reported]
  have e1 : (PInfo.default : PInfo ℚ) = ⟨-1, 0⟩ := rfl
  rw [e1]
  congr 1
  simp only [FloatOps.sub, FloatOps.mul, FloatOps.add, FloatOps.div, FloatOps.ofInt, FloatOps.lit]
  simp

/-- The detector covers the frequency: the period fits twice into the window and is not below the minimum period. -/
theorem covers {lowest highest : ℚ} {sps : Nat} {hyst : ℚ} {p0 : PD ℚ} (h0 : PD.mk' lowest highest sps hyst = .ok p0)
    (hl : 0 < lowest) (hh : 0 < highest) {N : Nat} (hN : 0 < N) (h1 : lowest ≤ (sps : ℚ) / N) (h2 : (sps : ℚ) / N ≤ highest) :
    2 * N ≤ p0.zc.window ∧ p0.minPeriod ≤ N := by
  have hNq : (0 : ℚ) < N := by exact_mod_cast hN
  rw [le_div_iff₀ hNq] at h1
  rw [div_le_iff₀ hNq] at h2
  rw [PD.mk'] at h0
  match hw' : toU64 (mul (mul (div (lit 1) lowest) (lit 2)) (ofInt sps) : ℚ), h0 with
  | .error _, h => cases h
  | .ok w, h =>
    match hm' : toU64 (mul (div (lit 1) highest) (ofInt sps) : ℚ), h with
    | .error _, h => cases h
    | .ok mp, h =>
      match toI32 (div highest lowest : ℚ), h with
      | .error _, h => cases h
      | .ok r, h =>
        simp only [bind, Except.bind] at h
        split at h
        · cases h
        · injection h with h
          rw [← h]
          have ew : (mul (mul (div (lit 1) lowest) (lit 2)) (ofInt sps) : ℚ) = 2 * sps / lowest := by
            show (1 / lowest * 2 * ((sps : Int) : ℚ)) = _
            push_cast; ring
          have em : (mul (div (lit 1) highest) (ofInt sps) : ℚ) = sps / highest := by
            show (1 / highest * ((sps : Int) : ℚ)) = _
            push_cast; ring
          rw [ew] at hw'
          rw [em] at hm'
          have f1 := toU64_floor (by positivity) hw'
          have f2 := toU64_floor (by positivity) hm'
          constructor
          · show 2 * N ≤ (ZC.mk' hyst w).window
            have hw2 : (2 * N : Int) ≤ w := by
              rw [f1, Int.le_floor]
              push_cast
              rw [le_div_iff₀ hl]; linarith
            show 2 * N ≤ adjustWindowSize w * 64
            rw [adjustWindowSize]; omega
          · show mp ≤ N
            have : (mp : Int) ≤ N := by
              have h5 : ((mp : Int) : ℚ) ≤ (N : ℚ) := by
                rw [f2]
                refine (Int.floor_le _).trans ?_
                rw [div_le_iff₀ hh]; linarith
              exact_mod_cast h5
            exact_mod_cast this

theorem half_fits {W N : Nat} (h64 : 64 ∣ W) (hge : 128 ≤ W) (hN : 2 * N ≤ W) (h : W ≠ 320 ∨ N ≤ 128) : N ≤ 2 * PD.cmpLen W := by
  obtain ⟨n, rfl⟩ := h64
  rw [PD.cmpLen, Nat.mul_div_cancel_left _ (by omega : 0 < 64)]
  omega

/-- **C97** A freshly constructed detector is fed a pulse train, of any shape, whose frequency `sps / N` is in the range of
the detector.  Every call succeeds.  After any number `T` of calls, either no analysis has been made yet and no
period is reported (`-1`), or the reported period is exactly `N`, with periodicity 1.  An analysis is made at least
once in any `W + w + 1` consecutive calls, `W` being the size of the window.  (One combination is excepted: windows of 320
samples with periods above 128.) -/
theorem C97_pulse_train (lowest highest : ℚ) (sps : Nat) (hyst : ℚ) (hl : 0 < lowest) (hh : 0 < highest) (p0 : PD ℚ)
    (h0 : PD.mk' lowest highest sps hyst = .ok p0) (hw : p0.zc.window ≤ 2 ^ 27) (x : Nat → ℚ) (N r w : Nat)
    (hx : PulseTrain x hyst N r w) (h1 : lowest ≤ (sps : ℚ) / N) (h2 : (sps : ℚ) / N ≤ highest)
    (hex : p0.zc.window ≠ 320 ∨ N ≤ 128) (T : Nat) :
    ∃ p ys, runC PD.step p0 ((List.range T).map x) = .ok (p, ys) ∧ ys.length = T ∧
      p.fundamental = (if true ∈ ys then ⟨N, 1⟩ else ⟨-1, 0⟩) ∧
      ∀ t, t + p0.zc.window + w < T → ∃ s, t ≤ s ∧ s ≤ t + p0.zc.window + w ∧ ys[s]? = some true := by
  have ht := hx.tone
  have hNpos : 0 < N := by have := hx.fits; omega
  obtain ⟨c1, c2⟩ := covers h0 hl hh hNpos h1 h2
  obtain ⟨a0, a1⟩ := tone_accept ht
  obtain ⟨i0, f0⟩ := fresh_inv (N := N) h0 hw ht c2 a0
  have hoff : ∀ t, add (x t) (div (neg hyst) (lit 2)) = x t + -hyst / 2 := fun t => rfl
  have hhalf := half_fits (N := N) i0.pinv.bits.ok.even i0.pinv.bits.ok.ge c1 hex
  obtain ⟨p, ys, b, e, l, i, f, g, -⟩ := tone_run ht c1 a0 a1 x hoff 0 0 i0 T
  simp only [Nat.zero_add] at e
  refine ⟨p, ys, e, l, ?_, ?_⟩
  · split
    · rename_i hm
      obtain ⟨B, -, hr⟩ := g hm
      rw [hr, reported_rat, if_neg (half_differs hx.gap hx.pulse hx.fits B _ hhalf)]
    · rename_i hm
      rw [(f hm).1, f0]; rfl
  · intro t hT
    by_contra hc
    -- the stretch from `t` on
    obtain ⟨p1, ys1, b1, e1, l1, i1, -, -, -⟩ := tone_run ht c1 a0 a1 x hoff 0 0 i0 t
    rw [Nat.zero_add] at i1
    obtain ⟨p2, ys2, b2, e2, l2, i2, -⟩ := tone_run ht c1 a0 a1 x hoff t b1 i1 (p0.zc.window + w + 1)
    have hin := tone_live ht c1 a0 a1 x hoff t b1 i1 (p0.zc.window + w + 1) p2 ys2 e2 (by
      intro hm
      obtain ⟨s, hs, hv⟩ := List.mem_iff_getElem.1 hm
      obtain ⟨p3, ys3, b3, e3, l3, -⟩ := tone_run ht c1 a0 a1 x hoff (t + (p0.zc.window + w + 1)) b2 i2 (T - (t + (p0.zc.window + w + 1)))
      have hcat := runC_append (runC_append e1 e2) e3
      have hlist : (List.map (fun i => x (0 + i)) (List.range t) ++ List.map (fun i => x (t + i)) (List.range (p0.zc.window + w + 1))) ++
          List.map (fun i => x (t + (p0.zc.window + w + 1) + i)) (List.range (T - (t + (p0.zc.window + w + 1)))) = (List.range T).map x := by
        apply List.ext_getElem
        · simp; omega
        · intro k h3 h4
          simp only [List.length_append, List.length_map, List.length_range] at h3
          rw [List.getElem_append]
          split
          · rename_i h5
            rw [List.getElem_append]
            split
            · simp
            · rename_i h6
              simp at h6 ⊢
              congr 1; omega
          · rename_i h5
            simp at h5 ⊢
            congr 1; omega
      rw [hlist, e] at hcat
      injection hcat with hcat
      injection hcat with hp hys
      apply hc
      refine ⟨t + s, by omega, by omega, ?_⟩
      rw [hys, List.getElem?_append_left (by simp; omega), List.getElem?_append_right (by omega), l1, Nat.add_sub_cancel_left,
        List.getElem?_eq_getElem hs, hv])
    omega

/-! ## The hypotheses are met -/

/-- A rectangular wave. -/
def rect (N r w : Nat) (t : Nat) : ℚ := if inPulse N r w t then 1 else -1

theorem rect_train {N r w : Nat} (hr : 1 ≤ r) (hw : 1 ≤ w) (h : r + w < N) {hyst : ℚ} (h0 : 0 ≤ hyst) (h1 : hyst < 2) :
    PulseTrain (rect N r w) hyst N r w := by
  have hin : ∀ i, i < N → (inPulse N r w i = true ↔ r ≤ i ∧ i < r + w) := by
    intro i hi; rw [inPulse, Nat.mod_eq_of_lt hi, decide_eq_true_eq]
  have hi1 : ∀ i, i < N → r ≤ i → i < r + w → rect N r w i = 1 := by
    intro i hi a b; rw [rect, if_pos ((hin i hi).2 ⟨a, b⟩)]
  have hi0 : ∀ i, i < N → (i < r ∨ r + w ≤ i) → rect N r w i = -1 := by
    intro i hi a; rw [rect, if_neg]; rw [hin i hi]; omega
  refine ⟨fun t => by rw [rect, rect, inPulse_add], hr, hw, h, fun i hi => ?_, ?_, fun i a b => ?_, ?_, fun i a b => ?_⟩
  · rw [hi0 i (by omega) (Or.inl hi)]; linarith
  · rw [hi1 r (by omega) (le_refl _) (by omega)]; linarith
  · rw [hi1 i (by omega) a b]; linarith
  · rw [hi0 (r + w) h (Or.inr (le_refl _))]; linarith
  · rw [hi0 i b (Or.inr a)]; linarith

/-- A train with a double-peaked pulse that dips below zero, not below the lower threshold. -/
def bumpy (t : Nat) : ℚ := match t % 20 with
  | 3 => 1 / 10 | 4 => 3 / 4 | 5 => -1 / 250 | 6 => 1 | 7 => 1 / 3 | 8 => -1 / 2 | 9 => -1 / 4 | 11 => -1 | _ => 0

theorem bumpy_train : PulseTrain bumpy (1 / 100) 20 3 5 := by
  have hall : ∀ i, i < 20 → (i < 3 → bumpy i ≤ 1 / 100 / 2) ∧ (3 ≤ i → i < 8 → -(1 / 100 / 2) ≤ bumpy i) ∧ (8 ≤ i → bumpy i ≤ 1 / 100 / 2) := by
    decide +kernel
  refine ⟨fun t => by simp [bumpy], by omega, by omega, by omega, fun i hi => (hall i (by omega)).1 hi, ?_,
    fun i a b => (hall i (by omega)).2.1 a b, ?_, fun i a b => (hall i b).2.2 a⟩
  · decide +kernel
  · decide +kernel

/-- The detector for 100–1600 Hz at 6400 samples per second, fed the 320 Hz train above: after any number of calls,
beyond the first 134, the period is exactly 20. -/
example : ∃ p0, PD.mk' (100 : ℚ) 1600 6400 (1 / 100) = .ok p0 ∧ ∀ T, 134 ≤ T → ∃ p ys, runC PD.step p0 ((List.range T).map bumpy) = .ok (p, ys) ∧
    p.fundamental = ⟨20, 1⟩ := by
  have hw : ((PD.mk' (100 : ℚ) 1600 6400 (1 / 100)).toOption.map (fun p => p.zc.window)) = some 128 := by decide +kernel
  match e : PD.mk' (100 : ℚ) 1600 6400 (1 / 100) with
  | .error _ => rw [e] at hw; simp [Except.toOption] at hw
  | .ok p0 =>
    rw [e] at hw
    simp only [Except.toOption, Option.map_some, Option.some.injEq] at hw
    refine ⟨p0, rfl, fun T hT => ?_⟩
    obtain ⟨p, ys, e1, l, f, lv⟩ := C97_pulse_train 100 1600 6400 (1 / 100) (by norm_num) (by norm_num) p0 e (by omega) bumpy 20 3 5 bumpy_train
      (by norm_num) (by norm_num) (by omega) T
    obtain ⟨s, -, -, hs⟩ := lv 0 (by omega)
    have hm : true ∈ ys := List.mem_of_getElem? hs
    exact ⟨p, ys, e1, by rw [f, if_pos hm]; norm_num⟩

/-- **C97 violation.** The excepted combination.  A detector for 100–1600 Hz at 16000 samples per second (its window has 320
samples) is fed a 100 Hz pulse train with pulses of 1 ms.  Analyses are made, but however long the signal lasts, no period is
ever reported: the pulses always fall into the parts of the window that the comparison with half the period does
not look at. -/
theorem C97_violation : ∃ p0, PD.mk' (100 : ℚ) 1600 16000 (1 / 100) = .ok p0 ∧ PulseTrain (rect 160 64 16) (1 / 100) 160 64 16 ∧
    ∀ T, ∃ p ys, runC PD.step p0 ((List.range T).map (rect 160 64 16)) = .ok (p, ys) ∧ ys.length = T ∧ p.fundamental = ⟨-1, 0⟩ ∧
      (336 < T → true ∈ ys) := by
  have hw : ((PD.mk' (100 : ℚ) 1600 16000 (1 / 100)).toOption.map (fun p => p.zc.window)) = some 320 := by decide +kernel
  have hx : PulseTrain (rect 160 64 16) (1 / 100) 160 64 16 := rect_train (by omega) (by omega) (by omega) (by norm_num) (by norm_num)
  match e : PD.mk' (100 : ℚ) 1600 16000 (1 / 100) with
  | .error _ => rw [e] at hw; simp [Except.toOption] at hw
  | .ok p0 =>
    rw [e] at hw
    simp only [Except.toOption, Option.map_some, Option.some.injEq] at hw
    refine ⟨p0, rfl, hx, fun T => ?_⟩
    have ht := hx.tone
    obtain ⟨c1, c2⟩ := covers (N := 160) e (by norm_num) (by norm_num) (by omega) (by norm_num) (by norm_num)
    obtain ⟨a0, a1⟩ := tone_accept ht
    obtain ⟨i0, f0⟩ := fresh_inv (N := 160) e (by omega) ht c2 a0
    have hoff : ∀ t, add (rect 160 64 16 t) (div (neg (1 / 100)) (lit 2)) = rect 160 64 16 t + -(1 / 100) / 2 := fun t => rfl
    obtain ⟨p, ys, b, e1, l, i, f, g, -⟩ := tone_run ht c1 a0 a1 (rect 160 64 16) hoff 0 0 i0 T
    have e1' := e1
    simp only [Nat.zero_add] at e1
    refine ⟨p, ys, e1, l, ?_, fun hT => ?_⟩
    · by_cases hm : true ∈ ys
      · obtain ⟨B, ⟨j, hB⟩, hr⟩ := g hm
        rw [hr, reported_rat, if_pos]
        intro k hk
        rw [hw] at hk hB
        have hk' : k < 64 := hk
        have hBj : B = j * 160 := by
          have : (B : Int) = (j * 160 : Nat) := by push_cast; omega
          exact_mod_cast this
        have z1 : inPulse 160 64 16 (B + k) = false := by
          rw [inPulse, decide_eq_false_iff_not, hBj]; omega
        have z2 : inPulse 160 64 16 (B + (k + 160 / 2)) = false := by
          rw [inPulse, decide_eq_false_iff_not, hBj]; omega
        rw [z1, z2]
      · rw [(f hm).1, f0]; rfl
    · by_contra hm
      have := tone_live ht c1 a0 a1 (rect 160 64 16) hoff 0 0 i0 T p ys e1' hm
      omega
end Verif
