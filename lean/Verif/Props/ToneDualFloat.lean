import Verif.Props.PitchLock
import Verif.Props.ToneDualLock
/-!
# Property C98: `dual_pitch_detector` in single precision

The lemmas of Props/ToneDual, Props/ToneDualStuck and Props/ToneDualLock, for any floating-point semantics.
-/
namespace Verif.AnyFloat
open FloatOps

section
variable {F : Type} [FloatOps F] {f : F}

theorem choose_pds (d : Dual F) : d.choose.pd1 = d.pd1 ∧ d.choose.pd2 = d.pd2 := by
  rw [Dual.choose]
  repeat' split
  all_goals exact ⟨rfl, rfl⟩

theorem computePredicted_inv {W : Nat} {d d' : Dual F} (h1 : PD.PInv W d.pd1.pd) (h2 : PD.PInv W d.pd2.pd)
    (e : d.computePredicted = .ok d') : PD.PInv W d'.pd1.pd ∧ PD.PInv W d'.pd2.pd := by
  have hp : ∀ (x x' : Pitch F) (f : F), PD.PInv W x.pd → x.predictFrequency = .ok (x', f) → PD.PInv W x'.pd := by
    intro x x' f hx h
    rw [Pitch.predictFrequency] at h
    match e : x.pd.predictPeriod, h with
    | .error _, h => cases h
    | .ok (a, b), h =>
      rw [PD.ok_bind] at h
      injection h with h
      injection h with h1 h2
      subst h1
      exact predictPeriod_inv hx e
  rw [Dual.computePredicted] at e
  match e1 : d.pd1.predictFrequency, e with
  | .error _, h => cases h
  | .ok (p1, f1), h =>
    rw [PD.ok_bind] at h
    simp only [] at h
    have k1 := hp _ _ _ h1 e1
    split at h
    · match e2 : d.pd2.predictFrequency, h with
      | .error _, h => cases h
      | .ok (p2, f2), h =>
        rw [PD.ok_bind] at h
        have k2 := hp _ _ _ h2 e2
        simp only [] at h
        split at h
        · injection h with h; subst h; exact ⟨k1, k2⟩
        · injection h with h; subst h; exact ⟨k1, k2⟩
    · injection h with h; subst h; exact ⟨k1, h2⟩

theorem dual_pds {W : Nat} {d d' : Dual F} {s : F} {r : Bool} (h1 : PD.PInv W d.pd1.pd) (h2 : PD.PInv W d.pd2.pd)
    (h : d.step s = .ok (d', r)) : PD.PInv W d'.pd1.pd ∧ PD.PInv W d'.pd2.pd := by
  rw [Dual.step] at h
  match e1 : d.pd1.step s, h with
  | .error _, h => cases h
  | .ok (p1, r1), h =>
    rw [PD.ok_bind] at h
    simp only [] at h
    have k1 : PD.PInv W p1.pd := by
      rcases pitch_step h1 s with ⟨q, eq, hq, -⟩ | eq
      · rw [e1] at eq; injection eq with eq; subst eq; exact hq
      · rw [e1] at eq; cases eq
    match e2 : d.pd2.step (FloatOps.neg s), h with
    | .error _, h => cases h
    | .ok (p2, r2), h =>
      rw [PD.ok_bind] at h
      simp only [] at h
      have k2 : PD.PInv W p2.pd := by
        rcases pitch_step h2 (FloatOps.neg s) with ⟨q, eq, hq, -⟩ | eq
        · rw [e2] at eq; injection eq with eq; subst eq; exact hq
        · rw [e2] at eq; cases eq
      split at h
      · generalize hd1 : (if (!p1.indeterminate && !p2.indeterminate) = true then
          Dual.choose { d with pd1 := p1, pd2 := p2 } else { d with pd1 := p1, pd2 := p2 } : Dual F) = d1 at h
        have hk : d1.pd1 = p1 ∧ d1.pd2 = p2 := by
          rw [← hd1]; split
          · exact choose_pds _
          · exact ⟨rfl, rfl⟩
        split at h
        · match e3 : d1.computePredicted, h with
          | .error _, h => cases h
          | .ok d2, h =>
            rw [PD.ok_bind] at h
            injection h with h; injection h with h _; subst h
            have := computePredicted_inv (d' := d2) (by rw [hk.1]; exact k1) (by rw [hk.2]; exact k2) e3
            exact this
        · injection h with h; injection h with h _; subst h
          rw [hk.1, hk.2]; exact ⟨k1, k2⟩
      · injection h with h; injection h with h _; subst h
        exact ⟨k1, k2⟩

/-- The invariant of the two detectors inside. -/
structure GInv (W : Nat) (d : Dual F) : Prop where
  i1 : PD.PInv W d.pd1.pd
  i2 : PD.PInv W d.pd2.pd

theorem dual_step_inv {W : Nat} {d d' : Dual F} {s : F} {r : Bool} (i : GInv W d) (h : d.step s = .ok (d', r)) : GInv W d' := by
  obtain ⟨k1, k2⟩ := dual_pds i.i1 i.i2 h
  exact ⟨k1, k2⟩

/-- The same edge detector and minimum period. -/
def PDSame (a b : PD F) : Prop := a.zc = b.zc ∧ a.minPeriod = b.minPeriod

theorem predictPeriod_same {p p' : PD F} {x : F} (e : p.predictPeriod = .ok (p', x)) : PDSame p' p := by
  rw [PD.predictPeriod] at e
  split at e
  · simp only [] at e
    split at e
    · match e2 : PD.predictOuter { p with predictEdge := p.edgeMark } (p.zc.numEdges - 1), e with
      | .error _, e => cases e
      | .ok none, e => injection e with e; injection e with e1 e3; subst e1; exact ⟨rfl, rfl⟩
      | .ok (some y), e => injection e with e; injection e with e1 e3; subst e1; exact ⟨rfl, rfl⟩
    · injection e with e; injection e with e1 e3; subst e1; exact ⟨rfl, rfl⟩
  · injection e with e; injection e with e1 e3; subst e1; exact ⟨rfl, rfl⟩

theorem computePredicted_same {d d' : Dual F} (e : d.computePredicted = .ok d') : PDSame d'.pd1.pd d.pd1.pd ∧ PDSame d'.pd2.pd d.pd2.pd ∧
    d'.pd1.sps = d.pd1.sps ∧ d'.pd2.sps = d.pd2.sps := by
  have hp : ∀ (x x' : Pitch F) (f : F), x.predictFrequency = .ok (x', f) → PDSame x'.pd x.pd ∧ x'.sps = x.sps := by
    intro x x' f h
    rw [Pitch.predictFrequency] at h
    match e : x.pd.predictPeriod, h with
    | .error _, h => cases h
    | .ok (a, b), h =>
      rw [PD.ok_bind] at h
      injection h with h
      injection h with h1 h2
      subst h1
      exact ⟨predictPeriod_same e, rfl⟩
  rw [Dual.computePredicted] at e
  match e1 : d.pd1.predictFrequency, e with
  | .error _, h => cases h
  | .ok (p1, f1), h =>
    rw [PD.ok_bind] at h
    simp only [] at h
    have k1 := hp _ _ _ e1
    split at h
    · match e2 : d.pd2.predictFrequency, h with
      | .error _, h => cases h
      | .ok (p2, f2), h =>
        rw [PD.ok_bind] at h
        have k2 := hp _ _ _ e2
        simp only [] at h
        split at h
        · injection h with h; subst h; exact ⟨k1.1, k2.1, k1.2, k2.2⟩
        · injection h with h; subst h; exact ⟨k1.1, k2.1, k1.2, k2.2⟩
    · injection h with h; subst h; exact ⟨k1.1, ⟨rfl, rfl⟩, k1.2, rfl⟩

/-- A call runs the two detectors. -/
theorem dual_frames {W : Nat} {d d' : Dual F} {s : F} {r : Bool} (i : GInv W d) (h : d.step s = .ok (d', r)) :
    ∃ q1 q2 b1 b2, d.pd1.pd.step s = .ok (q1, b1) ∧ d.pd2.pd.step (neg s) = .ok (q2, b2) ∧ PDSame d'.pd1.pd q1 ∧ PDSame d'.pd2.pd q2 ∧
      d'.pd1.sps = d.pd1.sps ∧ d'.pd2.sps = d.pd2.sps := by
  rw [Dual.step] at h
  match e1 : d.pd1.step s, h with
  | .error _, h => cases h
  | .ok (p1, r1), h =>
    rw [PD.ok_bind] at h
    simp only [] at h
    match e2 : d.pd2.step (FloatOps.neg s), h with
    | .error _, h => cases h
    | .ok (p2, r2), h =>
      rw [PD.ok_bind] at h
      simp only [] at h
      have k1 : p1.sps = d.pd1.sps ∧ ∃ b, d.pd1.pd.step s = .ok (p1.pd, b) := by
        rcases pitch_step i.i1 s with ⟨q, eq, -, hq⟩ | eq
        · rw [e1] at eq; injection eq with eq; subst eq; exact hq
        · rw [e1] at eq; cases eq
      have k2 : p2.sps = d.pd2.sps ∧ ∃ b, d.pd2.pd.step (neg s) = .ok (p2.pd, b) := by
        rcases pitch_step i.i2 (FloatOps.neg s) with ⟨q, eq, -, hq⟩ | eq
        · rw [e2] at eq; injection eq with eq; subst eq; exact hq
        · rw [e2] at eq; cases eq
      obtain ⟨s1, b1, f1⟩ := k1
      obtain ⟨s2, b2, f2⟩ := k2
      refine ⟨p1.pd, p2.pd, b1, b2, f1, f2, ?_⟩
      split at h
      · generalize hd1 : (if (!p1.indeterminate && !p2.indeterminate) = true then
          Dual.choose { d with pd1 := p1, pd2 := p2 } else { d with pd1 := p1, pd2 := p2 } : Dual F) = d1 at h
        have hk : d1.pd1 = p1 ∧ d1.pd2 = p2 := by
          rw [← hd1]; split
          · exact choose_pds _
          · exact ⟨rfl, rfl⟩
        split at h
        · match e3 : d1.computePredicted, h with
          | .error _, h => cases h
          | .ok d2, h =>
            rw [PD.ok_bind] at h
            injection h with h; injection h with h _; subst h
            obtain ⟨g1, g2, g3, g4⟩ := computePredicted_same e3
            rw [hk.1] at g1 g3
            rw [hk.2] at g2 g4
            exact ⟨g1, g2, g3.trans s1, g4.trans s2⟩
        · injection h with h; injection h with h _; subst h
          rw [hk.1, hk.2]; exact ⟨⟨rfl, rfl⟩, ⟨rfl, rfl⟩, s1, s2⟩
      · injection h with h; injection h with h _; subst h
        exact ⟨⟨rfl, rfl⟩, ⟨rfl, rfl⟩, s1, s2⟩

/-- A run of the dual detector runs the two edge detectors. -/
theorem dual_zc_run {W : Nat} {d d' : Dual F} {xs : List F} {ys : List Bool} (i : GInv W d) (h : runC Dual.step d xs = .ok (d', ys)) :
    GInv W d' ∧ (∃ zs, runC ZC.step d.pd1.pd.zc xs = .ok (d'.pd1.pd.zc, zs)) ∧ (∃ zs, runC ZC.step d.pd2.pd.zc (xs.map neg) = .ok (d'.pd2.pd.zc, zs)) ∧
      d'.pd1.pd.minPeriod = d.pd1.pd.minPeriod ∧ d'.pd2.pd.minPeriod = d.pd2.pd.minPeriod ∧ d'.pd1.sps = d.pd1.sps ∧ d'.pd2.sps = d.pd2.sps := by
  induction xs generalizing d ys with
  | nil => injection h with h; injection h with h1 h2; subst h1; exact ⟨i, ⟨[], rfl⟩, ⟨[], rfl⟩, rfl, rfl, rfl, rfl⟩
  | cons x xs ih =>
    obtain ⟨d1, v, o1, e1, e2, -⟩ := runC_cons h
    obtain ⟨q1, q2, b1, b2, f1, f2, s1, s2, t1, t2⟩ := dual_frames i e1
    obtain ⟨j, ⟨z1, g1⟩, ⟨z2, g2⟩, m1, m2, u1, u2⟩ := ih (dual_step_inv i e1) e2
    have hz : ∀ {p q : PD F} {x : F} {b : Bool}, PD.PInv W p → p.step x = .ok (q, b) → p.zc.step x = .ok (q.zc, q.zc.state) ∧ q.minPeriod = p.minPeriod := by
      intro p q x b hp e
      rcases PD.step_ok hp x with ⟨r, er, -, -, a1, a2, -⟩ | er
      · rw [e] at er; injection er with er; rw [← er] at a1 a2; exact ⟨a1, a2⟩
      · rw [e] at er; cases er
    obtain ⟨a1, a2⟩ := hz i.i1 f1
    obtain ⟨a3, a4⟩ := hz i.i2 f2
    refine ⟨j, ⟨q1.zc.state :: z1, ?_⟩, ⟨q2.zc.state :: z2, ?_⟩, by rw [m1, s1.2, a2], by rw [m2, s2.2, a4], by rw [u1, t1], by rw [u2, t2]⟩
    · rw [s1.1] at g1
      rw [runC, a1, PD.ok_bind]
      simp only []
      rw [g1]; rfl
    · rw [s2.1] at g2
      rw [List.map_cons, runC, a3, PD.ok_bind]
      simp only []
      rw [g2]; rfl

/-- The period detector `p` is in the state of a run of a pulse train of period `N`, and `xf` are the samples to come. -/
def OnTrain (hy : F) (I : PInfo F) (N W : Nat) (xf : Nat → F) (p : PD F) : Prop :=
  ∃ (y : Nat → F) (r w τ : Nat) (b : Int), Tone y hy N r w ∧ PTInv y hy N r w W (τ / N) (τ % N) b p ∧ (∀ i, add (xf i) (div hy (lit 2)) = y (τ + i)) ∧
    (∀ B, reported W y N r w B = I) ∧ 2 * N ≤ W ∧ Accept y r w (lit 0) ∧ ∀ i, i < N → lt (lit 0) (y i) = true → Accept y r w (y i)

theorem OnTrain.pinv {hy : F} {I : PInfo F} {N W : Nat} {xf : Nat → F} {p : PD F} (h : OnTrain hy I N W xf p) : PD.PInv W p := by
  obtain ⟨y, r, w, τ, b, -, h, -⟩ := h
  exact h.pinv

theorem OnTrain.pos {hy : F} {I : PInfo F} {N W : Nat} {xf : Nat → F} {p : PD F} (h : OnTrain hy I N W xf p) : 0 < N := by
  obtain ⟨y, r, w, τ, b, ht, -⟩ := h
  have := ht.rw; omega

theorem OnTrain.congr {hy : F} {I : PInfo F} {N W : Nat} {xf : Nat → F} {p q : PD F} (h : OnTrain hy I N W xf p) (hq : PD.PInv W q) (hz : q.zc = p.zc)
    (hm : q.minPeriod = p.minPeriod) : OnTrain hy I N W xf q := by
  obtain ⟨y, r, w, τ, b, ht, i, hx, hr, hN⟩ := h
  exact ⟨y, r, w, τ, b, ht, ⟨hq, by rw [hz]; exact i.t, i.b0, by rw [hm]; exact i.min, by rw [hz]; exact i.acc⟩, hx, hr, hN⟩

theorem OnTrain.step {hy : F} {I : PInfo F} {N W : Nat} {xf : Nat → F} {p : PD F} (h : OnTrain hy I N W xf p) :
    ∃ p', p.step (xf 0) = .ok (p', p'.zc.ready) ∧ OnTrain hy I N W (fun i => xf (i + 1)) p' ∧
      (p'.zc.ready = true → p'.fundamental = I) ∧ p'.zc.isReset = false := by
  have hNpos := h.pos
  obtain ⟨y, r, w, τ, b, ht, i, hx, hrep, hN, a0, a1⟩ := h
  obtain ⟨p', ep, i', -, g, hr⟩ := pd_tone_step' ht i hN a0 a1 (xf 0) (by rw [tone_mod ht]; exact hx 0)
  rw [(posK hNpos).1, (posK hNpos).2] at i'
  refine ⟨p', ep, ⟨y, r, w, τ + 1, _, ht, i', fun k => ?_, hrep, hN, a0, a1⟩, fun hrd => ?_, hr⟩
  · have := hx (k + 1)
    rw [this]; congr 1; omega
  · rw [g hrd, hrep]

/-- A stretch without an analysis is at most a window and a half. -/
theorem OnTrain.live {hy : F} {I : PInfo F} {N W : Nat} {xf : Nat → F} {p p' : PD F} (h : OnTrain hy I N W xf p) (n : Nat) (ys : List Bool)
    (e : runC PD.step p ((List.range n).map xf) = .ok (p', ys)) (hno : true ∉ ys) : 2 * n < 3 * W := by
  obtain ⟨y, r, w, τ, b, ht, i, hx, hrep, hN, a0, a1⟩ := h
  obtain ⟨x', hx', hxe⟩ := tone_extend ht xf τ hx
  have hlist : ((List.range n).map xf) = (List.range n).map fun i => x' (τ + i) := List.map_congr_left fun i _ => (hxe i).symm
  rw [hlist] at e
  have := tone_live ht hN a0 a1 x' hx' τ b i n p' ys e hno
  have := ht.rw
  have := i.pinv.bits.ok.ge
  omega

/-- A detector on its train stays on it. -/
theorem on_step_any {hy : F} {I : PInfo F} {N W : Nat} {xf : Nat → F} {p q q' : PD F} {b : Bool} (h : OnTrain hy I N W xf p) (e : p.step (xf 0) = .ok (q, b))
    (hs : PDSame q' q) (hq : PD.PInv W q') : OnTrain hy I N W (fun i => xf (i + 1)) q' := by
  obtain ⟨p', e', i, -⟩ := h.step
  rw [e] at e'
  injection e' with e'
  injection e' with e1 e2
  subst e1
  exact i.congr hq hs.1 hs.2

theorem dual_stays1 {hy : F} {I : PInfo F} {N W : Nat} {xf : Nat → F} {d d' : Dual F} (i : GInv W d) (h : OnTrain hy I N W xf d.pd1.pd) (n : Nat) {ys : List Bool}
    (e : runC Dual.step d ((List.range n).map xf) = .ok (d', ys)) : OnTrain hy I N W (fun i => xf (n + i)) d'.pd1.pd := by
  induction n generalizing d' ys with
  | zero => injection e with e; injection e with e1 e2; subst e1; simpa using h
  | succ n ih =>
    rw [range_snoc] at e
    obtain ⟨d1, o1, o2, e1, e2, -⟩ := runC_split e
    obtain ⟨v, e3, -⟩ := runC_one e2
    have j := (dual_zc_run i e1).1
    obtain ⟨q1, q2, b1, b2, f1, f2, s1, s2, -⟩ := dual_frames j e3
    have := on_step_any (ih e1) f1 s1 (dual_step_inv j e3).i1
    have hf : (fun i => xf (n + 1 + i)) = fun i => xf (n + (i + 1)) := by funext i; congr 1; omega
    rw [hf]; exact this

theorem dual_stays2 {hy : F} {I : PInfo F} {N W : Nat} {xf : Nat → F} {d d' : Dual F} (i : GInv W d) (h : OnTrain hy I N W (fun i => neg (xf i)) d.pd2.pd) (n : Nat) {ys : List Bool}
    (e : runC Dual.step d ((List.range n).map xf) = .ok (d', ys)) : OnTrain hy I N W (fun i => neg (xf (n + i))) d'.pd2.pd := by
  induction n generalizing d' ys with
  | zero => injection e with e; injection e with e1 e2; subst e1; simpa using h
  | succ n ih =>
    rw [range_snoc] at e
    obtain ⟨d1, o1, o2, e1, e2, -⟩ := runC_split e
    obtain ⟨v, e3, -⟩ := runC_one e2
    have j := (dual_zc_run i e1).1
    obtain ⟨q1, q2, b1, b2, f1, f2, s1, s2, -⟩ := dual_frames j e3
    have := on_step_any (ih e1) f2 s2 (dual_step_inv j e3).i2
    have hf : (fun i => neg (xf (n + 1 + i))) = fun i => neg (xf (n + (i + 1))) := by funext i; congr 2; omega
    rw [hf]; exact this

theorem pitch_on_step {hy : F} {I : PInfo F} {N W sps : Nat} {xf : Nat → F} {d : Pitch F} (hI : PitchPass sps I f) (h : OnTrain hy I N W xf d.pd) (hs : d.sps = sps)
    (hc : Settled (⟨f, I.periodicity⟩) d) :
    ∃ d' o, d.step (xf 0) = .ok (d', o) ∧ d.pd.step (xf 0) = .ok (d'.pd, o) ∧ OnTrain hy I N W (fun i => xf (i + 1)) d'.pd ∧ d'.sps = sps ∧
      Settled (⟨f, I.periodicity⟩) d' ∧ d'.current = (if o then ⟨f, I.periodicity⟩ else d.current) := by
  obtain ⟨p', e, i, g, hr⟩ := h.step
  by_cases hrd : p'.zc.ready = true
  · obtain ⟨n, hu⟩ := update_exact hI (d := { d with pd := p' }) hs hr hrd (g hrd) hc
    refine ⟨{ d with pd := p', current := ⟨f, I.periodicity⟩, framesAfterShift := n }, true, ?_, by rw [e, hrd], i, hs, Or.inr rfl, rfl⟩
    rw [Pitch.step, e, PD.ok_bind]
    exact hu
  · have hrd' : p'.zc.ready = false := by simpa using hrd
    refine ⟨{ d with pd := p' }, false, ?_, by rw [e, hrd'], i, hs, hc, rfl⟩
    rw [Pitch.step, e, PD.ok_bind]
    exact update_idle (d := { d with pd := p' }) hr hrd'

theorem indet_exact {I : PInfo F} (hne : eq f (lit 0) = false) {p : Pitch F} (h : p.current = ⟨f, I.periodicity⟩) : p.indeterminate = false := by
  rw [Pitch.indeterminate, h]; exact hne

/-- The two detectors inside after a call, each on its train. -/
structure DualOn (hy : F) (I : PInfo F) (f : F) (N W sps : Nat) (xf : Nat → F) (d : Dual F) : Prop where
  t1 : OnTrain hy I N W xf d.pd1.pd
  t2 : OnTrain hy I N W (fun i => neg (xf i)) d.pd2.pd
  s1 : d.pd1.sps = sps
  s2 : d.pd2.sps = sps
  c1 : Settled (⟨f, I.periodicity⟩) d.pd1
  c2 : Settled (⟨f, I.periodicity⟩) d.pd2

theorem dual_on_step {hy : F} {I : PInfo F} {N W sps : Nat} {xf : Nat → F} {d : Dual F} (hI : PitchPass sps I f) (hne : eq f (lit 0) = false) (h : DualOn hy I f N W sps xf d) :
    ∃ d' o1 o2, d.step (xf 0) = .ok (d', o1 || o2) ∧ DualOn hy I f N W sps (fun i => xf (i + 1)) d' ∧
      d.pd1.pd.step (xf 0) = .ok (d'.pd1.pd, o1) ∧ d.pd2.pd.step (neg (xf 0)) = .ok (d'.pd2.pd, o2) ∧
      d'.pd1.current = (if o1 then ⟨f, I.periodicity⟩ else d.pd1.current) ∧ d'.pd2.current = (if o2 then ⟨f, I.periodicity⟩ else d.pd2.current) ∧
      ∃ dm : Dual F, dm.pd1 = d'.pd1 ∧ dm.pd2 = d'.pd2 ∧ dm.current = d.current ∧ dm.mean = d.mean ∧ dm.first = d.first ∧
        d' = if (o1 || o2) && (!d'.pd1.indeterminate && !d'.pd2.indeterminate) then dm.choose else dm := by
  have hNpos := h.t1.pos
  obtain ⟨p1, o1, e1, ep1, i1, s1, c1, g1⟩ := pitch_on_step hI h.t1 h.s1 h.c1
  obtain ⟨p2, o2, e2, ep2, i2, s2, c2, g2⟩ := pitch_on_step hI h.t2 h.s2 h.c2
  obtain ⟨dm, hdm⟩ : ∃ dm : Dual F, dm = { d with pd1 := p1, pd2 := p2 } := ⟨_, rfl⟩
  have m1 : dm.pd1 = p1 := by rw [hdm]
  have m2 : dm.pd2 = p2 := by rw [hdm]
  obtain ⟨d', hd'⟩ : ∃ d', d' = if (o1 || o2) && (!p1.indeterminate && !p2.indeterminate) then dm.choose else dm := ⟨_, rfl⟩
  have k1 : d'.pd1 = p1 ∧ d'.pd2 = p2 := by
    rw [hd']; split
    · rw [(choose_pds dm).1, (choose_pds dm).2]; exact ⟨m1, m2⟩
    · exact ⟨m1, m2⟩
  refine ⟨d', o1, o2, ?_, ⟨by rw [k1.1]; exact i1, by rw [k1.2]; exact i2, by rw [k1.1]; exact s1, by rw [k1.2]; exact s2,
    by rw [k1.1]; exact c1, by rw [k1.2]; exact c2⟩, by rw [k1.1]; exact ep1, by rw [k1.2]; exact ep2, by rw [k1.1]; exact g1, by rw [k1.2]; exact g2,
    dm, by rw [m1, k1.1], by rw [m2, k1.2], by rw [hdm], by rw [hdm], by rw [hdm], by rw [k1.1, k1.2]; exact hd'⟩
  rw [Dual.step, e1, PD.ok_bind]
  simp only []
  rw [e2, PD.ok_bind]
  simp only [← hdm]
  by_cases ho : (o1 || o2) = true
  · have hnb : (p1.indeterminate && p2.indeterminate) = false := by
      rcases Bool.or_eq_true _ _ ▸ ho with h1 | h1
      · rw [indet_exact hne (by rw [g1, h1]; rfl)]; rfl
      · rw [indet_exact hne (p := p2) (by rw [g2, h1]; rfl)]; simp
    rw [ho, Bool.true_and] at hd'
    rw [if_pos ho, ← hd', k1.1, k1.2, hnb, if_neg (by simp), ho]
    rfl
  · have ho' : (o1 || o2) = false := by simpa using ho
    rw [ho', Bool.false_and, if_neg (by simp)] at hd'
    rw [if_neg ho, hd', ho']
    rfl

/-- `within_octave`, of a mean `m`. -/
def near (m f : F) : Bool := if lt m f then lt f (mul m (lit 2)) else lt (div m (lit 2)) f

/-- Nothing reported yet, or the running mean satisfies `P`. -/
def DualNear (P : F → Prop) (d : Dual F) : Prop := d.first = true ∨ P d.mean

theorem choose_near {I : PInfo F} {P : F → Prop} (hP0 : P f) (hP1 : ∀ m, P m → near m f = true ∧ P (Dual.meanStep m f)) {d : Dual F}
    (h1 : d.pd1.current = ⟨f, I.periodicity⟩) (h2 : d.pd2.current = ⟨f, I.periodicity⟩) (h : DualNear P d) :
    d.choose.current = ⟨f, I.periodicity⟩ ∧ DualNear P d.choose := by
  rw [Dual.choose]
  simp only [h1, h2, ite_self]
  by_cases hf : d.first = true
  · rw [if_pos hf]
    exact ⟨rfl, Or.inr hP0⟩
  · rw [if_neg hf]
    obtain ⟨k1, k2⟩ := hP1 _ (h.resolve_left hf)
    have hin : d.withinOctave f = true := k1
    rw [if_pos hin]
    exact ⟨rfl, Or.inr k2⟩

/-- From a state with both pitches exact, and the mean within an octave: exact from the next analysis on. -/
theorem dual_near_run {hy : F} {I : PInfo F} {N W sps : Nat} {xf : Nat → F} {d : Dual F} (hI : PitchPass sps I f) (hne : eq f (lit 0) = false) {P : F → Prop} (hP0 : P f) (hP1 : ∀ m, P m → near m f = true ∧ P (Dual.meanStep m f)) (h : DualOn hy I f N W sps xf d)
    (hc1 : d.pd1.current = ⟨f, I.periodicity⟩) (hc2 : d.pd2.current = ⟨f, I.periodicity⟩) (hn : DualNear P d) (n : Nat) :
    ∃ d' ys y1, runC Dual.step d ((List.range n).map xf) = .ok (d', ys) ∧ ys.length = n ∧ DualOn hy I f N W sps (fun i => xf (n + i)) d' ∧
      d'.pd1.current = ⟨f, I.periodicity⟩ ∧ d'.pd2.current = ⟨f, I.periodicity⟩ ∧ DualNear P d' ∧
      runC PD.step d.pd1.pd ((List.range n).map xf) = .ok (d'.pd1.pd, y1) ∧
      (true ∈ ys → d'.current = ⟨f, I.periodicity⟩) ∧ (true ∈ y1 → true ∈ ys) ∧ (true ∉ ys → d'.current = d.current) := by
  induction n with
  | zero => exact ⟨d, [], [], rfl, rfl, by simpa using h, hc1, hc2, hn, rfl, by simp, by simp, fun _ => rfl⟩
  | succ n ih =>
    obtain ⟨d1, ys, y1, e1, l1, h1, p1, p2, nr, a1, c1, c2, c3⟩ := ih
    obtain ⟨d2, o1, o2, e2, h2, b1, b2, g1, g2, dm, m1, m2, m3, m4, m5, hd⟩ := dual_on_step hI hne h1
    rw [p1, ite_self] at g1
    rw [p2, ite_self] at g2
    have hdm : DualNear P dm := by
      rw [DualNear, m4, m5]; exact nr
    obtain ⟨q1, q2⟩ := choose_near hP0 hP1 (d := dm) (by rw [m1, g1]) (by rw [m2, g2]) hdm
    rw [indet_exact hne g1, indet_exact hne g2] at hd
    simp only [Bool.not_false, Bool.and_true] at hd
    refine ⟨d2, ys ++ [o1 || o2], y1 ++ [o1], ?_, by simp [l1], ?_, g1, g2, ?_, ?_, ?_, ?_, ?_⟩
    · rw [range_snoc]; exact runC_snoc e1 e2
    · have : (fun i => xf (n + 1 + i)) = fun i => xf (n + (i + 1)) := by funext i; congr 1; omega
      rw [this]; exact h2
    · rw [hd]; split
      · exact q2
      · exact hdm
    · rw [range_snoc]; exact runC_snoc a1 b1
    · intro ht
      rw [hd]; split
      · exact q1
      · rename_i ho
        rw [m3]
        rw [List.mem_append, List.mem_singleton] at ht
        rcases ht with ht | ht
        · exact c1 ht
        · exact absurd ht.symm ho
    · intro ht
      rw [List.mem_append, List.mem_singleton] at ht ⊢
      rcases ht with ht | ht
      · exact Or.inl (c2 ht)
      · rw [← ht]; exact Or.inr rfl
    · intro ht
      rw [List.mem_append, List.mem_singleton, not_or] at ht
      rw [hd, if_neg (fun h => ht.2 h.symm), m3]
      exact c3 ht.1

/-- A detector in any state gets onto the train within nine and a half windows. -/
theorem OnTrain.lock {hy : F} {I : PInfo F} {W : Nat} {p1 : PD F} (hP : PD.PInv W p1) (hhy : p1.zc.hyst = hy) {y x : Nat → F} {N r w : Nat}
    (ht : Tone y hy N r w) (hx : ∀ t, add (x t) (div hy (lit 2)) = y t) (hN : 2 * N ≤ W) (hmin : p1.minPeriod ≤ N)
    (hrep : ∀ B, reported W (fun t => y (t + (r + w + 1))) N (N - w - 1) w B = I)
    (a0 : Accept (fun t => y (t + (r + w + 1))) (N - w - 1) w (lit 0))
    (a1 : ∀ i, i < N → lt (lit 0) (y (i + (r + w + 1))) = true → Accept (fun t => y (t + (r + w + 1))) (N - w - 1) w (y (i + (r + w + 1)))) (s : Nat) :
    ∃ t, t + W < 11 * W ∧ ∀ q zs, PD.PInv W q → q.minPeriod = p1.minPeriod →
      runC ZC.step p1.zc ((List.range t).map fun i => x (s + i)) = .ok (q.zc, zs) → OnTrain hy I N W (fun i => x (s + (t + i))) q := by
  have hr := ht.rotate
  obtain ⟨t, τ, hle, hyt, hlock⟩ := pd_locked_zc hP hhy ht hN a0 a1 x hx s
  refine ⟨t, by omega, fun q zs hq hm e => ?_⟩
  obtain ⟨b, m, hd, gs, hb, hi, hpk⟩ := hlock _ _ e
  exact ⟨_, _, w, τ, b, hr, ⟨hq, ⟨m, hd, gs, hi⟩, hb, by rw [hm]; exact hmin, hpk⟩, fun i => by rw [hx]; exact hyt i, hrep, hN, a0, a1⟩


/-- After eleven windows of a train (whose negation is one too), whatever came before, both detectors are on it. -/
theorem dual_locked {hy : F} {I : PInfo F} {W : Nat} {d d' : Dual F} (i : GInv W d) (hy1 : d.pd1.pd.zc.hyst = hy) (hy2 : d.pd2.pd.zc.hyst = hy)
    {x x' y y' : Nat → F} {N r w r' w' s s' : Nat} (ht : Tone y hy N r w) (ht' : Tone y' hy N r' w') (hx : ∀ t, add (x t) (div hy (lit 2)) = y t)
    (hx' : ∀ t, add (x' t) (div hy (lit 2)) = y' t) (hneg : ∀ i, x' (s' + i) = neg (x (s + i)))
    (hN : 2 * N ≤ W) (hm1 : d.pd1.pd.minPeriod ≤ N) (hm2 : d.pd2.pd.minPeriod ≤ N)
    (hrep : ∀ B, reported W (fun t => y (t + (r + w + 1))) N (N - w - 1) w B = I)
    (a0 : Accept (fun t => y (t + (r + w + 1))) (N - w - 1) w (lit 0))
    (a1 : ∀ i, i < N → lt (lit 0) (y (i + (r + w + 1))) = true → Accept (fun t => y (t + (r + w + 1))) (N - w - 1) w (y (i + (r + w + 1))))
    (hrep' : ∀ B, reported W (fun t => y' (t + (r' + w' + 1))) N (N - w' - 1) w' B = I)
    (a0' : Accept (fun t => y' (t + (r' + w' + 1))) (N - w' - 1) w' (lit 0))
    (a1' : ∀ i, i < N → lt (lit 0) (y' (i + (r' + w' + 1))) = true → Accept (fun t => y' (t + (r' + w' + 1))) (N - w' - 1) w' (y' (i + (r' + w' + 1))))
    {T : Nat} (hT : 10 * W ≤ T) {ys : List Bool} (e : runC Dual.step d ((List.range T).map fun i => x (s + i)) = .ok (d', ys)) :
    OnTrain hy I N W (fun i => x (s + (T + i))) d'.pd1.pd ∧ OnTrain hy I N W (fun i => neg (x (s + (T + i)))) d'.pd2.pd := by
  constructor
  · obtain ⟨t, ht, hl⟩ := OnTrain.lock i.i1 hy1 ht hx hN hm1 hrep a0 a1 s
    rw [show T = t + (T - t) by omega, range_split] at e
    obtain ⟨d1, o1, o2, e1, e2, -⟩ := runC_split e
    obtain ⟨j, ⟨z1, g1⟩, -, m1, -⟩ := dual_zc_run i e1
    have := dual_stays1 j (hl _ _ j.i1 m1 g1) (T - t) e2
    have hf : (fun i => x (s + (T + i))) = fun i => x (s + (t + (T - t + i))) := by funext i; congr 1; omega
    rw [hf]; exact this
  · obtain ⟨t, ht, hl⟩ := OnTrain.lock i.i2 hy2 ht' hx' hN hm2 hrep' a0' a1' s'
    rw [show T = t + (T - t) by omega, range_split] at e
    obtain ⟨d1, o1, o2, e1, e2, -⟩ := runC_split e
    obtain ⟨j, -, ⟨z1, g1⟩, -, m1, -⟩ := dual_zc_run i e1
    have hl' : ((List.range t).map fun i => x (s + i)).map neg = (List.range t).map fun i => x' (s' + i) := by
      rw [List.map_map]; exact List.map_congr_left fun i _ => (hneg i).symm
    rw [hl'] at g1
    have h2 := hl _ _ j.i2 m1 g1
    have hf0 : (fun i => x' (s' + (t + i))) = fun i => neg (x (s + (t + i))) := by funext i; exact hneg _
    rw [hf0] at h2
    have := dual_stays2 j (xf := fun i => x (s + (t + i))) h2 (T - t) e2
    have hf : (fun i => neg (x (s + (T + i)))) = fun i => neg (x (s + (t + (T - t + i)))) := by funext i; congr 2; omega
    rw [hf]; exact this

theorem dual_mk {lowest highest : F} {sps : Nat} {hyst : F} {d : Dual F} (h : Dual.mk' lowest highest sps hyst = .ok d) :
    Pitch.mk' lowest highest sps hyst = .ok d.pd1 ∧ d.pd2 = d.pd1 := by
  rw [Dual.mk'] at h
  match e : Pitch.mk' lowest highest sps hyst, h with
  | .error _, h => cases h
  | .ok p, h =>
    simp only [PD.ok_bind] at h
    injection h with h
    subst h
    exact ⟨rfl, rfl⟩

end
end Verif.AnyFloat

namespace Verif
open FloatOps Rounding

/-- The mean `m` is within an octave of `f`, the bounds rounded. -/
def OctaveOf32 (f m : F32) : Prop := fl32 (m.val / 2) < f.val ∧ f.val < fl32 (2 * m.val)

theorem octave32_near {f m : F32} (h : OctaveOf32 f m) : AnyFloat.near m f = true := by
  rw [AnyFloat.near]
  split
  · rw [f32_lt]
    show f.val < fl32 (m.val * (lit 2 : F32).val)
    rw [f32_two, mul_comm]; exact h.2
  · rw [f32_lt]
    show fl32 (m.val / (lit 2 : F32).val) < f.val
    rw [f32_two]; exact h.1

/-- A relative error bound away from the subnormal numbers. -/
theorem fl32_near {x : ℚ} (hx : 2 ^ (-100 : ℤ) ≤ x) : x * (1 - 1 / 2 ^ 20) ≤ fl32 x ∧ fl32 x ≤ x * (1 + 1 / 2 ^ 20) := by
  have h0 : (0 : ℚ) < 2 ^ (-100 : ℤ) := by positivity
  have hx0 : 0 < x := lt_of_lt_of_le h0 hx
  have h1 : |fl32 x - x| ≤ x / 2 ^ 20 := by
    refine (fl32_lawful.err x).trans (max_le ?_ ?_)
    · rw [abs_of_pos hx0]
      gcongr <;> norm_num
    · have : (2 : ℚ) ^ (-149 : ℤ) / 2 ≤ 2 ^ (-100 : ℤ) / 2 ^ 20 := by norm_num
      exact this.trans (by gcongr)
  obtain ⟨h2, h3⟩ := abs_le.1 h1
  constructor <;> linarith

theorem octave32_step {f m : F32} (hf : 2 ^ (-24 : ℤ) ≤ f.val) (h : OctaveOf32 f m) : OctaveOf32 f (Dual.meanStep m f) := by
  have h0 : (2 : ℚ) ^ (-24 : ℤ) = 1 / 2 ^ 24 := by norm_num
  have h1 : (2 : ℚ) ^ (-100 : ℤ) ≤ 1 / 2 ^ 50 := by norm_num
  rw [h0] at hf
  have hfp : 0 < f.val := lt_of_lt_of_le (by norm_num) hf
  -- a number at least a hundredth of `f` is rounded within a millionth
  have near : ∀ {x : ℚ}, f.val / 100 ≤ x → x * (1 - 1 / 2 ^ 20) ≤ fl32 x ∧ fl32 x ≤ x * (1 + 1 / 2 ^ 20) := fun {x} hx =>
    fl32_near (by norm_num at hf h1 ⊢; linarith)
  obtain ⟨g1, g2⟩ := h
  have m1 : 49 / 100 * f.val ≤ m.val := by
    by_contra hc
    have := fl32_lawful.mono (2 * m.val) (98 / 100 * f.val) (by linarith)
    have := (near (x := 98 / 100 * f.val) (by linarith)).2
    norm_num at this
    linarith
  have m2 : m.val ≤ 201 / 100 * f.val := by
    by_contra hc
    have := fl32_lawful.mono (201 / 200 * f.val) (m.val / 2) (by linarith)
    have := (near (x := 201 / 200 * f.val) (by linarith)).1
    norm_num at this
    linarith
  have e9 : fl32 9 = 9 := by have := lit32_int 9 (by norm_num); exact_mod_cast this
  obtain ⟨b, hb⟩ : ∃ b, b = fl32 (2 / 9) := ⟨_, rfl⟩
  obtain ⟨b1, b2⟩ := fl32_near (x := 2 / 9) (by norm_num)
  rw [← hb] at b1 b2
  obtain ⟨c, hc⟩ : ∃ c, c = fl32 (1 - b) := ⟨_, rfl⟩
  norm_num at b1 b2
  obtain ⟨c1, c2⟩ := fl32_near (x := 1 - b) (by norm_num at h1 ⊢; linarith)
  rw [← hc] at c1 c2
  norm_num at c1 c2
  have hv : (Dual.meanStep m f).val = fl32 (fl32 (b * f.val) + fl32 (c * m.val)) := by
    show fl32 (fl32 (fl32 (fl32 2 / fl32 9) * f.val) + fl32 (fl32 (fl32 1 - fl32 (fl32 2 / fl32 9)) * m.val)) = _
    have e2 : fl32 2 = 2 := f32_two
    rw [e2, e9, fl32_one, ← hb, ← hc]
  have bl : 222 / 1000 * f.val ≤ b * f.val := mul_le_mul_of_nonneg_right (by linarith) hfp.le
  have bu : b * f.val ≤ 223 / 1000 * f.val := mul_le_mul_of_nonneg_right (by linarith) hfp.le
  have cl : 777 / 1000 * (49 / 100 * f.val) ≤ c * m.val := mul_le_mul (by linarith) m1 (by linarith) (by linarith)
  have cu : c * m.val ≤ 778 / 1000 * (201 / 100 * f.val) := mul_le_mul (by linarith) m2 (by linarith) (by norm_num)
  obtain ⟨p1, p2⟩ := near (x := b * f.val) (by linarith)
  obtain ⟨q1, q2⟩ := near (x := c * m.val) (by linarith)
  norm_num at p1 p2 q1 q2
  obtain ⟨s1, s2⟩ := near (x := fl32 (b * f.val) + fl32 (c * m.val)) (by linarith)
  rw [← hv] at s1 s2
  norm_num at s1 s2
  obtain ⟨t1, t2⟩ := near (x := (Dual.meanStep m f).val / 2) (by linarith)
  obtain ⟨u1, u2⟩ := near (x := 2 * (Dual.meanStep m f).val) (by linarith)
  norm_num at t1 t2 u1 u2
  constructor <;> linarith

theorem octave32_self {f : F32} (hf : 2 ^ (-24 : ℤ) ≤ f.val) : OctaveOf32 f f := by
  have h0 : (2 : ℚ) ^ (-24 : ℤ) = 1 / 2 ^ 24 := by norm_num
  have h1 : (2 : ℚ) ^ (-100 : ℤ) ≤ 1 / 2 ^ 50 := by norm_num
  rw [h0] at hf
  obtain ⟨f1, f2⟩ := fl32_near (x := f.val / 2) (by norm_num at hf h1 ⊢; linarith)
  obtain ⟨f3, f4⟩ := fl32_near (x := 2 * f.val) (by norm_num at hf h1 ⊢; linarith)
  norm_num at hf f1 f2 f3 f4
  constructor <;> linarith

/-- **C98, dual detector, in single precision.** A dual detector that has processed any signal `hist` (every operation of the detector
rounded to binary32) is fed a train `x` of pulses of period `N`, whose negation is a train of pulses too, for at least ten windows.  If
then both detectors inside report the correctly rounded pitch `f = fl(sps / N)` with periodicity 1, and it is strictly within an octave of
the running mean of the dual detector (or nothing was reported yet), then for as long as the train goes on, every call succeeds, and the
dual detector reports exactly `f` with periodicity 1 from the next analysis on, which is at most a window and a half away: the rounding of
the running mean never drives it away.  (What is missing to the full property is false: `C98_violation_octave`, `C98_violation_dual`.) -/
theorem C98_dual_lock_on_binary32_partial (lowest highest : F32) (sps : Nat) (hyst : ℚ) (hs : 0 < sps) (d0 : Dual F32)
    (h0 : Dual.mk' lowest highest sps ⟨hyst⟩ = .ok d0) (hw : d0.pd1.pd.zc.window ≤ 2 ^ 25) (hist : List F32) (x x' : Nat → ℚ) (N r w r' w' s s' : Nat)
    (hx : PulseTrain32 x hyst N r w) (hx' : PulseTrain32 x' hyst N r' w') (hneg : ∀ i, x' (s' + i) = -x (s + i))
    (h1 : 2 * N ≤ d0.pd1.pd.zc.window) (h2 : d0.pd1.pd.minPeriod ≤ N) (hex : d0.pd1.pd.zc.window ≠ 320 ∨ N ≤ 128)
    (T : Nat) (hT : 10 * d0.pd1.pd.zc.window ≤ T) (d1 : Dual F32) (o1 : List Bool)
    (hrun : runC Dual.step d0 (hist ++ (List.range T).map fun t => (⟨x (s + t)⟩ : F32)) = .ok (d1, o1))
    (hc1 : d1.pd1.current = ⟨⟨fl32 (fl32 sps / N)⟩, ⟨1⟩⟩) (hc2 : d1.pd2.current = ⟨⟨fl32 (fl32 sps / N)⟩, ⟨1⟩⟩)
    (hm : d1.first = true ∨ fl32 (d1.mean.val / 2) < fl32 (fl32 sps / N) ∧ fl32 (fl32 sps / N) < fl32 (2 * d1.mean.val)) (n : Nat) :
    ∃ d ys, runC Dual.step d1 ((List.range n).map fun t => (⟨x (s + (T + t))⟩ : F32)) = .ok (d, ys) ∧ ys.length = n ∧
      d.current = (if true ∈ ys then ⟨⟨fl32 (fl32 sps / N)⟩, ⟨1⟩⟩ else d1.current) ∧ (3 * d0.pd1.pd.zc.window ≤ 2 * n → true ∈ ys) := by
  have hNpos : 0 < N := by have := hx.fits; omega
  have hN24 : N ≤ 2 ^ 24 := by omega
  obtain ⟨k1, k2⟩ := AnyFloat.dual_mk h0
  obtain ⟨q1, q2, q3⟩ := pitch_mk k1
  obtain ⟨hP, -, w0, -, hz⟩ := pd_mk q1 (by omega)
  have i0 : AnyFloat.GInv d0.pd1.pd.zc.window d0 := ⟨hP, by rw [k2]; exact hP⟩
  obtain ⟨d2, o2, o3, e1, e2, -⟩ := runC_split hrun
  obtain ⟨i1, ⟨z1, g1⟩, ⟨z2, g2⟩, m1, m2, s1, s2⟩ := AnyFloat.dual_zc_run i0 e1
  have hy1 : d2.pd1.pd.zc.hyst = neg ⟨hyst⟩ := by rw [zc_run_hyst hP.bits.ok hP.inv g1, hz]; rfl
  have hy2 : d2.pd2.pd.zc.hyst = neg ⟨hyst⟩ := by
    rw [k2] at g2
    rw [zc_run_hyst hP.bits.ok hP.inv g2, hz]; rfl
  have hpass := pitchPass32 hs hNpos hN24
  have hf := freq32_pos hs hNpos hN24
  have hfp : (0 : ℚ) < freq32 sps N := lt_of_lt_of_le (by positivity) hf
  have hne : eq (⟨freq32 sps N⟩ : F32) (lit 0) = false := by
    show decide (freq32 sps N = (lit 0 : F32).val) = false
    rw [decide_eq_false_iff_not, f32_l0]; exact hfp.ne'
  have facts : ∀ {x : Nat → ℚ} {r w : Nat}, PulseTrain32 x hyst N r w →
      (∀ B, reported d0.pd1.pd.zc.window (fun t => y32 x hyst (t + (r + w + 1))) N (N - w - 1) w B = ⟨⟨N⟩, ⟨1⟩⟩) ∧
      Accept (fun t => y32 x hyst (t + (r + w + 1))) (N - w - 1) w (lit 0) ∧
      ∀ i, i < N → lt (lit 0) (y32 x hyst (i + (r + w + 1))) = true → Accept (fun t => y32 x hyst (t + (r + w + 1))) (N - w - 1) w (y32 x hyst (i + (r + w + 1))) := by
    intro x r w hx
    have hr := hx.tone.rotate
    have hrepr : ∀ i, Rep 24 (-149) (y32 x hyst i).val := fun i => fl32_lawful.rep _
    obtain ⟨a0, a1⟩ := tone_accept32 (fun i => hrepr (i + (r + w + 1))) hr
    have hhalf := half_fits (N := N) hP.bits.ok.even hP.bits.ok.ge h1 hex
    exact ⟨fun B => by rw [reported32 hN24, if_neg (half_differs hr.r1 hr.w1 hr.rw B _ hhalf)], a0, a1⟩
  obtain ⟨r1, a0, a1⟩ := facts hx
  obtain ⟨r1', a0', a1'⟩ := facts hx'
  obtain ⟨l1, l2⟩ := AnyFloat.dual_locked i1 hy1 hy2 hx.tone hx'.tone (x := fun t => (⟨x t⟩ : F32)) (x' := fun t => (⟨x' t⟩ : F32)) (fun t => rfl) (fun t => rfl)
    (fun i => by show (⟨x' (s' + i)⟩ : F32) = ⟨-x (s + i)⟩; rw [hneg]) h1 (by rw [m1]; exact h2) (by rw [m2, k2]; exact h2) r1 a0 a1 r1' a0' a1' hT e2
  obtain ⟨i3, -, -, -, -, s3, s4⟩ := AnyFloat.dual_zc_run i1 e2
  have hon : AnyFloat.DualOn (neg ⟨hyst⟩) (⟨⟨N⟩, ⟨1⟩⟩ : PInfo F32) ⟨freq32 sps N⟩ N d0.pd1.pd.zc.window sps (fun i => ⟨x (s + (T + i))⟩) d1 :=
    ⟨l1, l2, by rw [s3, s1, q3], by rw [s4, s2, k2, q3], Or.inr hc1, Or.inr hc2⟩
  obtain ⟨d, ys, y1, e, l, -, -, -, -, a, b1, b2, b3⟩ := AnyFloat.dual_near_run hpass hne (P := OctaveOf32 ⟨freq32 sps N⟩) (octave32_self hf)
    (fun m hm => ⟨octave32_near hm, octave32_step hf hm⟩) hon hc1 hc2 hm n
  refine ⟨d, ys, e, l, ?_, fun hn => ?_⟩
  · split
    · rename_i ht; exact b1 ht
    · rename_i ht; exact b3 ht
  · apply b2
    by_contra hno
    have := l1.live n y1 a hno
    omega

theorem dual32_eval : ((Dual.mk' (⟨128⟩ : F32) ⟨2048⟩ 8192 ⟨1 / 128⟩).toOption.bind fun d =>
    (runC Dual.step d ((List.range 1280).map fun t => (⟨rect 50 12 25 t⟩ : F32))).toOption.map fun r =>
        (d.pd1.pd.zc.window, d.pd1.pd.minPeriod, r.1.mean.val,
          [r.1.pd1.current.frequency.val, r.1.pd1.current.periodicity.val, r.1.pd2.current.frequency.val, r.1.pd2.current.periodicity.val])) =
      some (128, 4, 5368709 / 32768, [5368709 / 32768, 1, 5368709 / 32768, 1]) := by decide +kernel

/-- The hypotheses are met: a dual detector for 128–2048 Hz at 8192 samples per second, fed a square wave of period 50, reports the
correctly rounded 163.84 Hz from sample 1472 on, for ever. -/
example : ∃ d0, Dual.mk' (⟨128⟩ : F32) ⟨2048⟩ 8192 ⟨1 / 128⟩ = .ok d0 ∧ ∀ n, 192 ≤ n →
    ∃ d ys, runC Dual.step d0 ((List.range (1280 + n)).map fun t => (⟨rect 50 12 25 t⟩ : F32)) = .ok (d, ys) ∧
      d.current = ⟨⟨5368709 / 32768⟩, ⟨1⟩⟩ := by
  have hx : PulseTrain32 (rect 50 12 25) (1 / 128) 50 12 25 := rect_train32 (by omega) (by omega) (by omega)
  obtain ⟨d0, e0, hev⟩ := toOption_bind_some dual32_eval
  obtain ⟨⟨d1, o1⟩, e1, hev⟩ := toOption_map_some hev
  simp only [Prod.mk.injEq, List.cons.injEq, and_true] at hev e1
  obtain ⟨hW, hmin, hmean, hf1, hp1, hf2, hp2⟩ := hev
  have hfl : fl32 (fl32 ((8192 : Nat) : ℚ) / (50 : Nat)) = 5368709 / 32768 := by decide +kernel
  refine ⟨d0, e0, fun n hn => ?_⟩
  have e2 : runC Dual.step d0 ([] ++ (List.range 1280).map fun t => (⟨rect 50 12 25 (0 + t)⟩ : F32)) = .ok (d1, o1) := by simpa using e1
  have hc1 : d1.pd1.current = ⟨⟨fl32 (fl32 ((8192 : Nat) : ℚ) / (50 : Nat))⟩, ⟨1⟩⟩ := by
    have : d1.pd1.current = ⟨⟨d1.pd1.current.frequency.val⟩, ⟨d1.pd1.current.periodicity.val⟩⟩ := rfl
    rw [this, hf1, hp1, hfl]
  have hc2 : d1.pd2.current = ⟨⟨fl32 (fl32 ((8192 : Nat) : ℚ) / (50 : Nat))⟩, ⟨1⟩⟩ := by
    have : d1.pd2.current = ⟨⟨d1.pd2.current.frequency.val⟩, ⟨d1.pd2.current.periodicity.val⟩⟩ := rfl
    rw [this, hf2, hp2, hfl]
  obtain ⟨d, ys, e, l, c, lv⟩ := C98_dual_lock_on_binary32_partial ⟨128⟩ ⟨2048⟩ 8192 (1 / 128) (by norm_num) d0 e0 (by omega) [] _ _ 50 12 25 12 25 0 25
    hx hx rect_half (by omega) (by omega) (by omega) 1280 (by omega) d1 o1 e2 hc1 hc2
    (Or.inr (by rw [hmean, hfl]; decide +kernel)) n
  refine ⟨d, o1 ++ ys, ?_, ?_⟩
  · rw [range_split]
    refine runC_append e1 ?_
    simpa using e
  · rw [c, if_pos (lv (by omega)), hfl]

end Verif
