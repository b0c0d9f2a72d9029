import Verif.Props.TonePitch
/-!
# Property C98: pitches that are never reported
-/
namespace Verif
open FloatOps

/-- A step that also returns a test of the new state. -/
def obsStep {σ ι ο : Type} (P : σ → Bool) (step : σ → ι → C (σ × ο)) (s : σ) (x : ι) : C (σ × Bool) := do
  let (s', _) ← step s x
  return (s', P s')

theorem obs_run {σ ι ο : Type} {P : σ → Bool} {step : σ → ι → C (σ × ο)} {s s2 : σ} {xs : List ι} {o : List Bool}
    (h : runC (obsStep P step) s xs = .ok (s2, o)) (hs : P s = true) (ho : o.all id = true) (n : Nat) :
    ∃ s' o', runC step s (xs.take n) = .ok (s', o') ∧ P s' = true := by
  induction xs generalizing s o n with
  | nil => exact ⟨s, [], by simp [runC], hs⟩
  | cons x xs ih =>
    cases n with
    | zero => exact ⟨s, [], by simp [runC], hs⟩
    | succ n =>
      rw [runC, obsStep] at h
      cases e : step s x with
      | error err => rw [e] at h; cases h
      | ok rr =>
        obtain ⟨s1, v⟩ := rr
        rw [e] at h
        cases e2 : runC (obsStep P step) s1 xs with
        | error err => simp only [bind, Except.bind, pure, Except.pure, e2] at h; cases h
        | ok r2 =>
          obtain ⟨s3, o3⟩ := r2
          simp only [bind, Except.bind, pure, Except.pure, e2] at h
          injection h with h
          injection h with h1 h2
          subst h1
          rw [← h2] at ho
          simp only [List.all_cons, id, Bool.and_eq_true] at ho
          obtain ⟨s', o', e3, hp⟩ := ih e2 ho.1 ho.2 n
          refine ⟨s', v :: o', ?_, hp⟩
          rw [List.take_succ_cons, runC, e]
          simp only [bind, Except.bind, e3]
          rfl

theorem toOption_bind_some {α β : Type} {A : C α} {g : α → Option β} {v : β} (h : A.toOption.bind g = some v) : ∃ a, A = .ok a ∧ g a = some v := by
  cases A with
  | error _ => cases h
  | ok a => exact ⟨a, rfl, h⟩

theorem toOption_map_some {α β : Type} {A : C α} {g : α → β} {v : β} (h : A.toOption.map g = some v) : ∃ a, A = .ok a ∧ g a = v := by
  cases A with
  | error _ => cases h
  | ok a => exact ⟨a, rfl, by injection h⟩

/-- The pitch is `m` times the frequency of the analysis, and no shift has been made in the last frame: it stays. -/
theorem update_stuck {f : ℚ} {m sps : Nat} (hm : 2 ≤ m) (hm2 : m < 2 ^ 31) {N : Nat} (hN : 0 < N) (hspos : 0 < sps) (hf : f = (sps : ℚ) / N)
    {d : Pitch ℚ} (hs : d.sps = sps) (hr : d.pd.zc.isReset = false) (hrd : d.pd.zc.ready = true) (hfd : d.pd.fundamental = ⟨N, 1⟩)
    (hc : d.current.frequency = f * m) (hn : 1 ≤ d.framesAfterShift) :
    d.update = .ok ({ d with current := ⟨f * m, 1⟩, framesAfterShift := d.framesAfterShift + 1 }, true) := by
  have hI := pitchPass_rat hspos hN
  rw [← hf] at hI
  have hNq : (0 : ℚ) < N := by exact_mod_cast hN
  have hf0 : 0 < f := by rw [hf]; exact div_pos (by exact_mod_cast hspos) hNq
  have hm' : (2 : ℚ) ≤ m := by exact_mod_cast hm
  have hfm : 2 * f ≤ f * m := by nlinarith
  have hcalc : d.calculateFrequency = f := by
    rw [Pitch.calculateFrequency, hfd, hI.per, hs, hI.freq]; rfl
  have hq : FloatOps.div (f * m) f = (m : ℚ) := by
    show f * m / f = m
    field_simp
  have hround : (FloatOps.round (m : ℚ) : ℚ) = m := by
    show (if 0 ≤ (m : ℚ) then ((⌊(m : ℚ) + 1 / 2⌋ : Int) : ℚ) else _) = m
    rw [if_pos (by linarith)]
    have : ⌊(m : ℚ) + 1 / 2⌋ = (m : Int) := by rw [Int.floor_eq_iff]; push_cast; constructor <;> linarith
    rw [this]; push_cast; rfl
  have htr : (FloatOps.trunc (m : ℚ)) = some (m : Int) := by
    show some (if 0 ≤ (m : ℚ) then ⌊(m : ℚ)⌋ else _) = _
    rw [if_pos (by linarith), Int.floor_natCast]
  have hi : toI32 (FloatOps.round (FloatOps.div (f * m) f)) = .ok (m : Int) := by
    rw [hq, hround, toI32, htr]
    simp only []
    rw [if_pos (by omega)]
  have e0 : eq (f * (m : ℚ)) (lit 0) = false := by
    rw [Bool.eq_false_iff, Ne, rat_eq]; show ¬ f * (m : ℚ) = 0; linarith
  have e1 : ¬ lt (FloatOps.abs (sub (f * (m : ℚ)) f)) (div (f * (m : ℚ)) (lit 32)) = true := by
    rw [rat_lt, rat_abs]
    show ¬ |f * (m : ℚ) - f| < f * m / 32
    rw [abs_of_pos (by linarith)]; linarith
  have e2 : lt f (f * (m : ℚ)) = true := by rw [rat_lt]; linarith
  have e3 : lt (FloatOps.abs (sub (f * (m : ℚ)) (mul f (ofInt (m : Int))))) (div (f * (m : ℚ)) (lit 32)) = true := by
    rw [rat_lt, rat_abs]
    show |f * (m : ℚ) - f * ((m : Int) : ℚ)| < f * m / 32
    push_cast
    rw [sub_self, abs_zero]; linarith
  have e4 : (mul f (ofInt (m : Int)) : ℚ) = f * m := by show f * ((m : Int) : ℚ) = _; push_cast; rfl
  rw [e4] at e3
  have e5 : decide ((m : Int) > 1) = true := by rw [decide_eq_true_eq]; omega
  rw [Pitch.update]
  simp only [hr, hrd, hfd, hI.pty, hcalc, hc, e0, hI.pos, hI.notBelow, if_true, Bool.false_eq_true, if_false]
  rw [Pitch.bias, Pitch.biasResult]
  simp only [hc]
  rw [if_neg e1, if_pos (by omega), if_pos e2, hi, PD.ok_bind]
  simp only [e4, e3, e5, Bool.and_self, if_true]
  rfl

theorem stuck_run {y : Nat → ℚ} {hy : ℚ} {N r w W sps m : Nat} {b : Int} {f : ℚ} (hm : 2 ≤ m) (hm2 : m < 2 ^ 31) (hspos : 0 < sps) (hNpos : 0 < N)
    (hf : f = (sps : ℚ) / N) (ht : Tone y hy N r w) (hN : 2 * N ≤ W) (hrep : ∀ B, reported W y N r w B = ⟨N, 1⟩) {d : Pitch ℚ} (t0 : Nat)
    (h : PTInv y hy N r w W (t0 / N) (t0 % N) b d.pd) (hs : d.sps = sps) (hc : d.current.frequency = f * m) (hn : 1 ≤ d.framesAfterShift)
    (x : Nat → ℚ) (hx : ∀ t, x t + hy / 2 = y t) (n : Nat) :
    ∃ d' ys b', runC Pitch.step d ((List.range n).map fun i => x (t0 + i)) = .ok (d', ys) ∧
      PTInv y hy N r w W ((t0 + n) / N) ((t0 + n) % N) b' d'.pd ∧ d'.sps = sps ∧ d'.current.frequency = f * m ∧ 1 ≤ d'.framesAfterShift := by
  obtain ⟨a0, a1⟩ := tone_accept ht
  induction n with
  | zero => exact ⟨d, [], b, rfl, h, hs, hc, hn⟩
  | succ n ih =>
    obtain ⟨d1, ys, b1, e1, i1, s1, c1, n1⟩ := ih
    obtain ⟨p', ep, i, -, g, hr⟩ := pd_tone_step' ht i1 hN a0 a1 (x (t0 + n)) (by rw [tone_mod ht]; exact hx _)
    rw [(posK hNpos).1, (posK hNpos).2] at i
    by_cases hrd : p'.zc.ready = true
    · have hfd := g hrd
      rw [hrep] at hfd
      have hu := update_stuck hm hm2 hNpos hspos hf (d := { d1 with pd := p' }) s1 hr hrd hfd c1 n1
      refine ⟨{ d1 with pd := p', current := ⟨f * m, 1⟩, framesAfterShift := d1.framesAfterShift + 1 }, ys ++ [true], _, ?_, i, s1, rfl, Nat.le_add_left _ _⟩
      rw [range_snoc]
      refine runC_snoc e1 ?_
      rw [Pitch.step, ep, PD.ok_bind]
      exact hu
    · have hrd' : p'.zc.ready = false := by simpa using hrd
      refine ⟨{ d1 with pd := p' }, ys ++ [false], _, ?_, i, s1, c1, n1⟩
      rw [range_snoc]
      refine runC_snoc e1 ?_
      rw [Pitch.step, ep, PD.ok_bind]
      exact update_idle (d := { d1 with pd := p' }) hr hrd'

def stuckTest (d : Pitch ℚ) : Bool := d.current.frequency == 400 && decide (1 ≤ d.framesAfterShift)

theorem stuck_eval : ((Pitch.mk' (100 : ℚ) 1600 6400 (1 / 100)).toOption.bind fun d =>
    (runC Pitch.step d ((List.range 400).map (rect 16 4 8))).toOption.bind fun r =>
      (runC (obsStep stuckTest Pitch.step) r.1 ((List.range 1408).map (rect 32 8 16))).toOption.map fun q =>
        (stuckTest r.1 && q.2.all id, d.pd.zc.window)) = some (true, 128) := by decide +kernel

/-- **C98 violation.**  A detector for 100–1600 Hz at 6400 samples per second is fed a 400 Hz square wave for 400 samples, and
from there on, without a pause, a 200 Hz square wave.  Every call succeeds, and the period detector inside measures the
new period exactly, but the reported pitch remains 400 Hz for ever. -/
theorem C98_violation_octave : ∃ d0, Pitch.mk' (100 : ℚ) 1600 6400 (1 / 100) = .ok d0 ∧
    PulseTrain (rect 16 4 8) (1 / 100) 16 4 8 ∧ PulseTrain (rect 32 8 16) (1 / 100) 32 8 16 ∧
    ∀ T, ∃ d ys, runC Pitch.step d0 ((List.range 400).map (rect 16 4 8) ++ (List.range T).map (rect 32 8 16)) = .ok (d, ys) ∧
      d.current.frequency = 400 ∧ (1408 ≤ T → d.pd.fundamental = ⟨32, 1⟩) := by
  have hx : PulseTrain (rect 32 8 16) (1 / 100) 32 8 16 := rect_train (by omega) (by omega) (by omega) (by norm_num) (by norm_num)
  obtain ⟨d0, e0, hev⟩ := toOption_bind_some stuck_eval
  obtain ⟨⟨d1, o1⟩, e1, hev⟩ := toOption_bind_some hev
  obtain ⟨⟨d2, o2⟩, e2, hev⟩ := toOption_map_some hev
  simp only [Prod.mk.injEq, Bool.and_eq_true] at hev e2
  obtain ⟨⟨ht1, ho2⟩, hW⟩ := hev
  have hpre := obs_run e2 ht1 ho2
  have htake : ∀ n, n ≤ 1408 → ((List.range 1408).map (rect 32 8 16)).take n = (List.range n).map (rect 32 8 16) := by
    intro n hn
    rw [← List.map_take, List.take_range, Nat.min_eq_left hn]
  have htest : ∀ d, stuckTest d = true → d.current.frequency = 400 ∧ 1 ≤ d.framesAfterShift := by
    intro d hd
    simp only [stuckTest, Bool.and_eq_true, beq_iff_eq, decide_eq_true_eq] at hd
    exact hd
  obtain ⟨h0', hcur, hsps⟩ := pitch_mk e0
  obtain ⟨c1, c2⟩ := covers (N := 32) h0' (by norm_num) (by norm_num) (by omega) (by norm_num) (by norm_num)
  obtain ⟨hP, -, w0, -, hz⟩ := pd_mk h0' (by omega)
  obtain ⟨zs1, e1p⟩ := pitch_pd_run hP e1
  obtain ⟨P1, m1, zs1', z1⟩ := pd_run' hP e1p
  obtain ⟨-, k1, s1⟩ := pitch_run hP (by rw [hcur]; exact pitchOk_zero) _ d1 o1 e1
  have hhy : d1.pd.zc.hyst = neg (1 / 100) := by rw [zc_run_hyst hP.bits.ok hP.inv z1, hz]; rfl
  have ht := hx.tone
  have hr := ht.rotate
  obtain ⟨a0, a1⟩ := tone_accept hr
  obtain ⟨t, τ, hle, hyt, hlock⟩ := pd_locked P1 hhy ht c1 (by rw [m1]; exact c2) a0 a1 (rect 32 8 16) (fun t => rfl) 0
  simp only [Nat.zero_add] at hyt hlock
  have hrunT : ∀ T, ∃ d ys, runC Pitch.step d1 ((List.range T).map (rect 32 8 16)) = .ok (d, ys) ∧ d.current.frequency = 400 := by
    intro T
    by_cases hT : T ≤ t
    · obtain ⟨d, ys, e, hp⟩ := hpre T
      rw [htake T (by omega)] at e
      exact ⟨d, ys, e, (htest d hp).1⟩
    · obtain ⟨d3, o3, e3, hp⟩ := hpre t
      rw [htake t (by omega)] at e3
      obtain ⟨hcf, hfs⟩ := htest d3 hp
      obtain ⟨zs3, e3p⟩ := pitch_pd_run P1 e3
      obtain ⟨b, hi⟩ := hlock _ _ e3p
      obtain ⟨-, k3, s3⟩ := pitch_run P1 k1 _ d3 o3 e3
      obtain ⟨x', hx', hxe⟩ := tone_extend hr (fun i => rect 32 8 16 (t + i)) τ (fun i => hyt i)
      have hlist : ((List.range (T - t)).map fun i => rect 32 8 16 (t + i)) = (List.range (T - t)).map fun i => x' (τ + i) :=
        List.map_congr_left fun i _ => (hxe i).symm
      have hhalf := half_fits (N := 32) hP.bits.ok.even hP.bits.ok.ge c1 (by omega)
      obtain ⟨d4, o4, b4, e4, -, -, c4, -⟩ := stuck_run (m := 2) (f := 200) (sps := 6400) (by omega) (by omega) (by omega) (by omega : 0 < 32) (by norm_num) hr c1
        (fun B => by rw [reported_rat, if_neg (half_differs hr.r1 hr.w1 hr.rw B _ hhalf)]) τ hi (by rw [s3, s1, hsps]) (by rw [hcf]; norm_num) hfs x' hx' (T - t)
      rw [← hlist] at e4
      have := runC_append e3 e4
      rw [← range_split, show t + (T - t) = T by omega] at this
      exact ⟨d4, _, this, by rw [c4]; norm_num⟩
  refine ⟨d0, e0, rect_train (by omega) (by omega) (by omega) (by norm_num) (by norm_num), hx, fun T => ?_⟩
  obtain ⟨d, ys, e, hc⟩ := hrunT T
  have hall := runC_append e1 e
  refine ⟨d, _, hall, hc, fun hT => ?_⟩
  obtain ⟨zs, hz2⟩ := pitch_pd_run hP hall
  have hl : ((List.range T).map (rect 32 8 16)) = (List.range T).map fun t => rect 32 8 16 (0 + t) := by simp
  rw [hl] at hz2
  have := C97_lock_on 100 1600 6400 (1 / 100) (by norm_num) (by norm_num) d0.pd h0' (by omega) _ (rect 32 8 16) 32 8 16 hx
    (by norm_num) (by norm_num) (by omega) 0 T (by omega) d.pd zs hz2
  rw [this]; norm_num
end Verif
