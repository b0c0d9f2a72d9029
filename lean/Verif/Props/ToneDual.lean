import Verif.Props.TonePitchStuck
/-!
# Property C98: `dual_pitch_detector` on a periodic signal (exact arithmetic)
-/
namespace Verif
open FloatOps

/-! ## A period detector on a train -/

/-- The period detector `p` is in the state of a run of a pulse train of period `N`, and `xf` are the samples to come. -/
def OnTrain (hy : ℚ) (N W : Nat) (xf : Nat → ℚ) (p : PD ℚ) : Prop :=
  ∃ (y : Nat → ℚ) (r w τ : Nat) (b : Int), Tone y hy N r w ∧ PTInv y hy N r w W (τ / N) (τ % N) b p ∧ (∀ i, xf i + hy / 2 = y (τ + i)) ∧
    (∀ B, reported W y N r w B = ⟨N, 1⟩) ∧ 2 * N ≤ W

theorem OnTrain.pinv {hy : ℚ} {N W : Nat} {xf : Nat → ℚ} {p : PD ℚ} (h : OnTrain hy N W xf p) : PD.PInv W p := by
  obtain ⟨y, r, w, τ, b, -, h, -⟩ := h
  exact h.pinv

theorem OnTrain.pos {hy : ℚ} {N W : Nat} {xf : Nat → ℚ} {p : PD ℚ} (h : OnTrain hy N W xf p) : 0 < N := by
  obtain ⟨y, r, w, τ, b, ht, -⟩ := h
  have := ht.rw; omega

theorem OnTrain.congr {hy : ℚ} {N W : Nat} {xf : Nat → ℚ} {p q : PD ℚ} (h : OnTrain hy N W xf p) (hq : PD.PInv W q) (hz : q.zc = p.zc)
    (hm : q.minPeriod = p.minPeriod) : OnTrain hy N W xf q := by
  obtain ⟨y, r, w, τ, b, ht, i, hx, hr, hN⟩ := h
  exact ⟨y, r, w, τ, b, ht, ⟨hq, by rw [hz]; exact i.t, i.b0, by rw [hm]; exact i.min, by rw [hz]; exact i.acc⟩, hx, hr, hN⟩

theorem OnTrain.step {hy : ℚ} {N W : Nat} {xf : Nat → ℚ} {p : PD ℚ} (h : OnTrain hy N W xf p) :
    ∃ p', p.step (xf 0) = .ok (p', p'.zc.ready) ∧ OnTrain hy N W (fun i => xf (i + 1)) p' ∧
      (p'.zc.ready = true → p'.fundamental = ⟨N, 1⟩) ∧ p'.zc.isReset = false := by
  have hNpos := h.pos
  obtain ⟨y, r, w, τ, b, ht, i, hx, hrep, hN⟩ := h
  obtain ⟨a0, a1⟩ := tone_accept ht
  obtain ⟨p', ep, i', -, g, hr⟩ := pd_tone_step' ht i hN a0 a1 (xf 0) (by rw [tone_mod ht]; exact hx 0)
  rw [(posK hNpos).1, (posK hNpos).2] at i'
  refine ⟨p', ep, ⟨y, r, w, τ + 1, _, ht, i', fun k => ?_, hrep, hN⟩, fun hrd => ?_, hr⟩
  · have := hx (k + 1)
    rw [this]; congr 1; omega
  · rw [g hrd, hrep]

/-- A stretch without an analysis is at most a window and a half. -/
theorem OnTrain.live {hy : ℚ} {N W : Nat} {xf : Nat → ℚ} {p p' : PD ℚ} (h : OnTrain hy N W xf p) (n : Nat) (ys : List Bool)
    (e : runC PD.step p ((List.range n).map xf) = .ok (p', ys)) (hno : true ∉ ys) : 2 * n < 3 * W := by
  obtain ⟨y, r, w, τ, b, ht, i, hx, hrep, hN⟩ := h
  obtain ⟨a0, a1⟩ := tone_accept ht
  obtain ⟨x', hx', hxe⟩ := tone_extend ht xf τ hx
  have hlist : ((List.range n).map xf) = (List.range n).map fun i => x' (τ + i) := List.map_congr_left fun i _ => (hxe i).symm
  rw [hlist] at e
  have := tone_live ht hN a0 a1 x' hx' τ b i n p' ys e hno
  have := ht.rw
  have := i.pinv.bits.ok.ge
  omega

/-- A freshly constructed detector at the start of a train. -/
theorem OnTrain.fresh {lowest highest : ℚ} {sps : Nat} {hyst : ℚ} {p0 : PD ℚ} (hl : 0 < lowest) (hh : 0 < highest)
    (h0 : PD.mk' lowest highest sps hyst = .ok p0) (hw : p0.zc.window ≤ 2 ^ 27) {x : Nat → ℚ} {N r w : Nat}
    (hx : PulseTrain x hyst N r w) (h1 : lowest ≤ (sps : ℚ) / N) (h2 : (sps : ℚ) / N ≤ highest)
    (hex : p0.zc.window ≠ 320 ∨ N ≤ 128) : OnTrain (-hyst) N p0.zc.window x p0 := by
  have ht := hx.tone
  have hNpos : 0 < N := by have := hx.fits; omega
  obtain ⟨c1, c2⟩ := covers h0 hl hh hNpos h1 h2
  obtain ⟨a0, a1⟩ := tone_accept ht
  obtain ⟨i0, -⟩ := fresh_inv (N := N) h0 hw ht c2 a0
  have hhalf := half_fits (N := N) i0.pinv.bits.ok.even i0.pinv.bits.ok.ge c1 hex
  refine ⟨_, r, w, 0, 0, ht, i0, fun i => by simp, fun B => ?_, c1⟩
  rw [reported_rat, if_neg (half_differs hx.gap hx.pulse hx.fits B _ hhalf)]

/-- A detector in any state gets onto the train within nine and a half windows. -/
theorem OnTrain.lock {hyst : ℚ} {W : Nat} {p1 : PD ℚ} (hP : PD.PInv W p1) (hhy : p1.zc.hyst = -hyst) {x : Nat → ℚ} {N r w : Nat}
    (hx : PulseTrain x hyst N r w) (hN : 2 * N ≤ W) (hmin : p1.minPeriod ≤ N) (hex : W ≠ 320 ∨ N ≤ 128) (s : Nat) :
    ∃ t, t + W < 11 * W ∧ ∀ q zs, PD.PInv W q → q.minPeriod = p1.minPeriod →
      runC ZC.step p1.zc ((List.range t).map fun i => x (s + i)) = .ok (q.zc, zs) → OnTrain (-hyst) N W (fun i => x (s + (t + i))) q := by
  have ht := hx.tone
  have hr := ht.rotate
  obtain ⟨a0, a1⟩ := tone_accept hr
  obtain ⟨t, τ, hle, hyt, hlock⟩ := pd_locked_zc hP hhy ht hN a0 a1 x (fun t => rfl) s
  refine ⟨t, by omega, fun q zs hq hm e => ?_⟩
  obtain ⟨b, m, hd, gs, hb, hi, hpk⟩ := hlock _ _ e
  have hhalf := half_fits (N := N) hP.bits.ok.even hP.bits.ok.ge hN hex
  refine ⟨_, _, w, τ, b, hr, ⟨hq, ⟨m, hd, gs, hi⟩, hb, by rw [hm]; exact hmin, hpk⟩, fun i => hyt i, fun B => ?_, hN⟩
  rw [reported_rat, if_neg (half_differs hr.r1 hr.w1 hr.rw B _ hhalf)]

/-! ## One call of the dual detector -/

/-- The exact result. -/
def exactPitch (sps N : Nat) : PitchInfo ℚ := ⟨(sps : ℚ) / N, 1⟩

theorem pitch_on_step {hy : ℚ} {N W sps : Nat} {xf : Nat → ℚ} {d : Pitch ℚ} (hspos : 0 < sps) (h : OnTrain hy N W xf d.pd) (hs : d.sps = sps)
    (hc : Settled (exactPitch sps N) d) :
    ∃ d' o, d.step (xf 0) = .ok (d', o) ∧ d.pd.step (xf 0) = .ok (d'.pd, o) ∧ OnTrain hy N W (fun i => xf (i + 1)) d'.pd ∧ d'.sps = sps ∧
      Settled (exactPitch sps N) d' ∧ d'.current = (if o then exactPitch sps N else d.current) := by
  obtain ⟨p', e, i, g, hr⟩ := h.step
  by_cases hrd : p'.zc.ready = true
  · obtain ⟨n, hu⟩ := update_exact (pitchPass_rat hspos h.pos) (d := { d with pd := p' }) hs hr hrd (g hrd) hc
    refine ⟨{ d with pd := p', current := exactPitch sps N, framesAfterShift := n }, true, ?_, by rw [e, hrd], i, hs, Or.inr rfl, rfl⟩
    rw [Pitch.step, e, PD.ok_bind]
    exact hu
  · have hrd' : p'.zc.ready = false := by simpa using hrd
    refine ⟨{ d with pd := p' }, false, ?_, by rw [e, hrd'], i, hs, hc, rfl⟩
    rw [Pitch.step, e, PD.ok_bind]
    exact update_idle (d := { d with pd := p' }) hr hrd'

theorem indet_exact {sps N : Nat} (hspos : 0 < sps) (hN : 0 < N) {p : Pitch ℚ} (h : p.current = exactPitch sps N) : p.indeterminate = false := by
  rw [Bool.eq_false_iff, Ne, indet_iff, h]
  show ¬ (sps : ℚ) / N = 0
  have : (0 : ℚ) < sps / N := div_pos (by exact_mod_cast hspos) (by exact_mod_cast hN)
  linarith

/-- The two detectors inside after a call, each on its train. -/
structure DualOn (hy : ℚ) (N W sps : Nat) (xf : Nat → ℚ) (d : Dual ℚ) : Prop where
  t1 : OnTrain hy N W xf d.pd1.pd
  t2 : OnTrain hy N W (fun i => -xf i) d.pd2.pd
  s1 : d.pd1.sps = sps
  s2 : d.pd2.sps = sps
  c1 : Settled (exactPitch sps N) d.pd1
  c2 : Settled (exactPitch sps N) d.pd2

theorem dual_on_step {hy : ℚ} {N W sps : Nat} {xf : Nat → ℚ} {d : Dual ℚ} (hspos : 0 < sps) (h : DualOn hy N W sps xf d) :
    ∃ d' o1 o2, d.step (xf 0) = .ok (d', o1 || o2) ∧ DualOn hy N W sps (fun i => xf (i + 1)) d' ∧
      d.pd1.pd.step (xf 0) = .ok (d'.pd1.pd, o1) ∧ d.pd2.pd.step (-xf 0) = .ok (d'.pd2.pd, o2) ∧
      d'.pd1.current = (if o1 then exactPitch sps N else d.pd1.current) ∧ d'.pd2.current = (if o2 then exactPitch sps N else d.pd2.current) ∧
      ∃ dm : Dual ℚ, dm.pd1 = d'.pd1 ∧ dm.pd2 = d'.pd2 ∧ dm.current = d.current ∧ dm.mean = d.mean ∧ dm.first = d.first ∧
        d' = if (o1 || o2) && (!d'.pd1.indeterminate && !d'.pd2.indeterminate) then dm.choose else dm := by
  have hNpos := h.t1.pos
  obtain ⟨p1, o1, e1, ep1, i1, s1, c1, g1⟩ := pitch_on_step hspos h.t1 h.s1 h.c1
  obtain ⟨p2, o2, e2, ep2, i2, s2, c2, g2⟩ := pitch_on_step hspos h.t2 h.s2 h.c2
  have hneg : (FloatOps.neg (xf 0) : ℚ) = -xf 0 := rfl
  obtain ⟨dm, hdm⟩ : ∃ dm : Dual ℚ, dm = { d with pd1 := p1, pd2 := p2 } := ⟨_, rfl⟩
  have m1 : dm.pd1 = p1 := by rw [hdm]
  have m2 : dm.pd2 = p2 := by rw [hdm]
  obtain ⟨d', hd'⟩ : ∃ d', d' = if (o1 || o2) && (!p1.indeterminate && !p2.indeterminate) then dm.choose else dm := ⟨_, rfl⟩
  have k1 : d'.pd1 = p1 ∧ d'.pd2 = p2 := by
    rw [hd']; split
    · rw [(choose_pds dm).1, (choose_pds dm).2]; exact ⟨m1, m2⟩
    · exact ⟨m1, m2⟩
  refine ⟨d', o1, o2, ?_, ⟨by rw [k1.1]; exact i1, by rw [k1.2]; exact i2, by rw [k1.1]; exact s1, by rw [k1.2]; exact s2,
    by rw [k1.1]; exact c1, by rw [k1.2]; exact c2⟩, by rw [k1.1]; exact ep1, by rw [k1.2]; exact ep2, by rw [k1.1]; exact g1, by rw [k1.2]; exact g2,
    dm, by rw [m1, k1.1], by rw [m2, k1.2], by rw [hdm], by rw [hdm], by rw [hdm], by rw [k1.1, k1.2]; exact hd'⟩
  rw [Dual.step, e1, PD.ok_bind]
  simp only [hneg]
  rw [e2, PD.ok_bind]
  simp only [← hdm]
  by_cases ho : (o1 || o2) = true
  · have hnb : (p1.indeterminate && p2.indeterminate) = false := by
      rcases Bool.or_eq_true _ _ ▸ ho with h1 | h1
      · rw [indet_exact hspos hNpos (by rw [g1, h1]; rfl)]; rfl
      · rw [indet_exact hspos hNpos (p := p2) (by rw [g2, h1]; rfl)]; simp
    rw [ho, Bool.true_and] at hd'
    rw [if_pos ho, ← hd', k1.1, k1.2, hnb, if_neg (by simp), ho]
    rfl
  · have ho' : (o1 || o2) = false := by simpa using ho
    rw [ho', Bool.false_and, if_neg (by simp)] at hd'
    rw [if_neg ho, hd', ho']
    rfl

/-- A run of the dual detector on the train. -/
theorem dual_on_run {hy : ℚ} {N W sps : Nat} {xf : Nat → ℚ} {d : Dual ℚ} (hspos : 0 < sps) (h : DualOn hy N W sps xf d) (P : Dual ℚ → Prop)
    (hP : P d) (hstep : ∀ (xf : Nat → ℚ) (d d' : Dual ℚ) (o : Bool), DualOn hy N W sps xf d → P d → d.step (xf 0) = .ok (d', o) → P d') (n : Nat) :
    ∃ d' ys y1 y2, runC Dual.step d ((List.range n).map xf) = .ok (d', ys) ∧ ys.length = n ∧ DualOn hy N W sps (fun i => xf (n + i)) d' ∧ P d' ∧
      runC PD.step d.pd1.pd ((List.range n).map xf) = .ok (d'.pd1.pd, y1) ∧
      runC PD.step d.pd2.pd ((List.range n).map fun i => -xf i) = .ok (d'.pd2.pd, y2) ∧
      d'.pd1.current = (if true ∈ y1 then exactPitch sps N else d.pd1.current) ∧ d'.pd2.current = (if true ∈ y2 then exactPitch sps N else d.pd2.current) := by
  induction n with
  | zero => exact ⟨d, [], [], [], rfl, rfl, by simpa using h, hP, rfl, rfl, by simp, by simp⟩
  | succ n ih =>
    obtain ⟨d1, ys, y1, y2, e1, l1, h1, p1, a1, a2, c1, c2⟩ := ih
    obtain ⟨d2, o1, o2, e2, h2, b1, b2, g1, g2, -⟩ := dual_on_step hspos h1
    have hp2 := hstep _ d1 d2 _ h1 p1 e2
    refine ⟨d2, ys ++ [o1 || o2], y1 ++ [o1], y2 ++ [o2], ?_, by simp [l1], ?_, hp2, ?_, ?_, ?_, ?_⟩
    · rw [range_snoc]; exact runC_snoc e1 e2
    · have : (fun i => xf (n + 1 + i)) = fun i => xf (n + (i + 1)) := by funext i; congr 1; omega
      rw [this]; exact h2
    · rw [range_snoc]; exact runC_snoc a1 b1
    · rw [range_snoc]; exact runC_snoc a2 b2
    · rw [g1, c1]; cases o1 <;> simp
    · rw [g2, c2]; cases o2 <;> simp

theorem dual_mk {lowest highest : ℚ} {sps : Nat} {hyst : ℚ} {d : Dual ℚ} (h : Dual.mk' lowest highest sps hyst = .ok d) :
    Pitch.mk' lowest highest sps hyst = .ok d.pd1 ∧ d.pd2 = d.pd1 ∧ d.pd1.framesAfterShift = 0 ∧ d.current = ⟨0, 0⟩ ∧ d.first = true := by
  rw [Dual.mk'] at h
  match e : Pitch.mk' lowest highest sps hyst, h with
  | .error _, h => cases h
  | .ok p, h =>
    simp only [PD.ok_bind] at h
    injection h with h
    subst h
    refine ⟨rfl, rfl, ?_, rfl, rfl⟩
    rw [Pitch.mk'] at e
    match e2 : PD.mk' lowest highest sps hyst, e with
    | .error _, e => cases e
    | .ok pd, e => injection e with e; rw [← e]
end Verif
