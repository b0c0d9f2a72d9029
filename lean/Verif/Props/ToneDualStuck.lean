import Verif.Props.ToneDual
/-!
# Property C98: a pitch the dual detector never reports
-/
namespace Verif
open FloatOps

/-- The same edge detector and minimum period. -/
def PDSame (a b : PD ℚ) : Prop := a.zc = b.zc ∧ a.minPeriod = b.minPeriod

theorem predictPeriod_same {p p' : PD ℚ} {x : ℚ} (e : p.predictPeriod = .ok (p', x)) : PDSame p' p := by
  rw [PD.predictPeriod] at e
  split at e
  · simp only [] at e
    split at e
    · match e2 : PD.predictOuter { p with predictEdge := p.edgeMark } (p.zc.numEdges - 1), e with
      | .error _, e => cases e
      | .ok none, e => injection e with e; injection e with e1 e3; subst e1; exact ⟨rfl, rfl⟩
      | .ok (some y), e => injection e with e; injection e with e1 e3; subst e1; exact ⟨rfl, rfl⟩
    · injection e with e; injection e with e1 e3; subst e1; exact ⟨rfl, rfl⟩
  · injection e with e; injection e with e1 e3; subst e1; exact ⟨rfl, rfl⟩

theorem computePredicted_same {d d' : Dual ℚ} (e : d.computePredicted = .ok d') : PDSame d'.pd1.pd d.pd1.pd ∧ PDSame d'.pd2.pd d.pd2.pd ∧
    d'.pd1.sps = d.pd1.sps ∧ d'.pd2.sps = d.pd2.sps := by
  have hp : ∀ (x x' : Pitch ℚ) (f : ℚ), x.predictFrequency = .ok (x', f) → PDSame x'.pd x.pd ∧ x'.sps = x.sps := by
    intro x x' f h
    rw [Pitch.predictFrequency] at h
    match e : x.pd.predictPeriod, h with
    | .error _, h => cases h
    | .ok (a, b), h =>
      rw [PD.ok_bind] at h
      injection h with h
      injection h with h1 h2
      subst h1
      exact ⟨predictPeriod_same e, rfl⟩
  rw [Dual.computePredicted] at e
  match e1 : d.pd1.predictFrequency, e with
  | .error _, h => cases h
  | .ok (p1, f1), h =>
    rw [PD.ok_bind] at h
    simp only [] at h
    have k1 := hp _ _ _ e1
    split at h
    · match e2 : d.pd2.predictFrequency, h with
      | .error _, h => cases h
      | .ok (p2, f2), h =>
        rw [PD.ok_bind] at h
        have k2 := hp _ _ _ e2
        simp only [] at h
        split at h
        · injection h with h; subst h; exact ⟨k1.1, k2.1, k1.2, k2.2⟩
        · injection h with h; subst h; exact ⟨k1.1, k2.1, k1.2, k2.2⟩
    · injection h with h; subst h; exact ⟨k1.1, ⟨rfl, rfl⟩, k1.2, rfl⟩

/-- A call runs the two detectors. -/
theorem dual_frames {W : Nat} {d d' : Dual ℚ} {s : ℚ} {r : Bool} (i : DualInv W d) (h : d.step s = .ok (d', r)) :
    ∃ q1 q2 b1 b2, d.pd1.pd.step s = .ok (q1, b1) ∧ d.pd2.pd.step (-s) = .ok (q2, b2) ∧ PDSame d'.pd1.pd q1 ∧ PDSame d'.pd2.pd q2 ∧
      d'.pd1.sps = d.pd1.sps ∧ d'.pd2.sps = d.pd2.sps := by
  rw [Dual.step] at h
  match e1 : d.pd1.step s, h with
  | .error _, h => cases h
  | .ok (p1, r1), h =>
    rw [PD.ok_bind] at h
    simp only [] at h
    match e2 : d.pd2.step (FloatOps.neg s), h with
    | .error _, h => cases h
    | .ok (p2, r2), h =>
      rw [PD.ok_bind] at h
      simp only [] at h
      have k1 : p1.sps = d.pd1.sps ∧ ∃ b, d.pd1.pd.step s = .ok (p1.pd, b) := by
        rcases pitch_step i.i1 s with ⟨q, eq, -, hq⟩ | eq
        · rw [e1] at eq; injection eq with eq; subst eq; exact hq
        · rw [e1] at eq; cases eq
      have k2 : p2.sps = d.pd2.sps ∧ ∃ b, d.pd2.pd.step (-s) = .ok (p2.pd, b) := by
        rcases pitch_step i.i2 (FloatOps.neg s) with ⟨q, eq, -, hq⟩ | eq
        · rw [e2] at eq; injection eq with eq; subst eq; exact hq
        · rw [e2] at eq; cases eq
      obtain ⟨s1, b1, f1⟩ := k1
      obtain ⟨s2, b2, f2⟩ := k2
      refine ⟨p1.pd, p2.pd, b1, b2, f1, f2, ?_⟩
      split at h
      · generalize hd1 : (if (!p1.indeterminate && !p2.indeterminate) = true then
          Dual.choose { d with pd1 := p1, pd2 := p2 } else { d with pd1 := p1, pd2 := p2 } : Dual ℚ) = d1 at h
        have hk : d1.pd1 = p1 ∧ d1.pd2 = p2 := by
          rw [← hd1]; split
          · exact choose_pds _
          · exact ⟨rfl, rfl⟩
        split at h
        · match e3 : d1.computePredicted, h with
          | .error _, h => cases h
          | .ok d2, h =>
            rw [PD.ok_bind] at h
            injection h with h; injection h with h _; subst h
            obtain ⟨g1, g2, g3, g4⟩ := computePredicted_same e3
            rw [hk.1] at g1 g3
            rw [hk.2] at g2 g4
            exact ⟨g1, g2, g3.trans s1, g4.trans s2⟩
        · injection h with h; injection h with h _; subst h
          rw [hk.1, hk.2]; exact ⟨⟨rfl, rfl⟩, ⟨rfl, rfl⟩, s1, s2⟩
      · injection h with h; injection h with h _; subst h
        exact ⟨⟨rfl, rfl⟩, ⟨rfl, rfl⟩, s1, s2⟩

theorem runC_one {σ ι ο : Type} {step : σ → ι → C (σ × ο)} {s s2 : σ} {x : ι} {o : List ο} (h : runC step s [x] = .ok (s2, o)) :
    ∃ v, step s x = .ok (s2, v) ∧ o = [v] := by
  rw [runC] at h
  cases hs : step s x with
  | error err => rw [hs] at h; cases h
  | ok rr =>
    obtain ⟨a, v⟩ := rr
    rw [hs] at h
    injection h with h
    injection h with e4 e5
    subst e4
    exact ⟨v, rfl, e5.symm⟩

theorem runC_cons {σ ι ο : Type} {step : σ → ι → C (σ × ο)} {s s2 : σ} {x : ι} {xs : List ι} {o : List ο} (h : runC step s (x :: xs) = .ok (s2, o)) :
    ∃ s1 v o1, step s x = .ok (s1, v) ∧ runC step s1 xs = .ok (s2, o1) ∧ o = v :: o1 := by
  obtain ⟨s1, o1, o2, e1, e2, e3⟩ := runC_split (xs := [x]) h
  obtain ⟨v, e4, rfl⟩ := runC_one e1
  exact ⟨s1, v, o2, e4, e2, e3⟩

/-- A run of the dual detector runs the two edge detectors. -/
theorem dual_zc_run {W : Nat} {d d' : Dual ℚ} {xs : List ℚ} {ys : List Bool} (i : DualInv W d) (h : runC Dual.step d xs = .ok (d', ys)) :
    DualInv W d' ∧ (∃ zs, runC ZC.step d.pd1.pd.zc xs = .ok (d'.pd1.pd.zc, zs)) ∧ (∃ zs, runC ZC.step d.pd2.pd.zc (xs.map (-·)) = .ok (d'.pd2.pd.zc, zs)) ∧
      d'.pd1.pd.minPeriod = d.pd1.pd.minPeriod ∧ d'.pd2.pd.minPeriod = d.pd2.pd.minPeriod ∧ d'.pd1.sps = d.pd1.sps ∧ d'.pd2.sps = d.pd2.sps := by
  induction xs generalizing d ys with
  | nil => injection h with h; injection h with h1 h2; subst h1; exact ⟨i, ⟨[], rfl⟩, ⟨[], rfl⟩, rfl, rfl, rfl, rfl⟩
  | cons x xs ih =>
    obtain ⟨d1, v, o1, e1, e2, -⟩ := runC_cons h
    obtain ⟨q1, q2, b1, b2, f1, f2, s1, s2, t1, t2⟩ := dual_frames i e1
    obtain ⟨j, ⟨z1, g1⟩, ⟨z2, g2⟩, m1, m2, u1, u2⟩ := ih (dual_step_inv i e1) e2
    have hz : ∀ {p q : PD ℚ} {x : ℚ} {b : Bool}, PD.PInv W p → p.step x = .ok (q, b) → p.zc.step x = .ok (q.zc, q.zc.state) ∧ q.minPeriod = p.minPeriod := by
      intro p q x b hp e
      rcases PD.step_ok hp x with ⟨r, er, -, -, a1, a2, -⟩ | er
      · rw [e] at er; injection er with er; rw [← er] at a1 a2; exact ⟨a1, a2⟩
      · rw [e] at er; cases er
    obtain ⟨a1, a2⟩ := hz i.i1 f1
    obtain ⟨a3, a4⟩ := hz i.i2 f2
    refine ⟨j, ⟨q1.zc.state :: z1, ?_⟩, ⟨q2.zc.state :: z2, ?_⟩, by rw [m1, s1.2, a2], by rw [m2, s2.2, a4], by rw [u1, t1], by rw [u2, t2]⟩
    · rw [s1.1] at g1
      rw [runC, a1, PD.ok_bind]
      simp only []
      rw [g1]; rfl
    · rw [s2.1] at g2
      rw [List.map_cons, runC, a3, PD.ok_bind]
      simp only []
      rw [g2]; rfl

/-- A detector on its train stays on it. -/
theorem on_step_any {hy : ℚ} {N W : Nat} {xf : Nat → ℚ} {p q q' : PD ℚ} {b : Bool} (h : OnTrain hy N W xf p) (e : p.step (xf 0) = .ok (q, b))
    (hs : PDSame q' q) (hq : PD.PInv W q') : OnTrain hy N W (fun i => xf (i + 1)) q' := by
  obtain ⟨p', e', i, -⟩ := h.step
  rw [e] at e'
  injection e' with e'
  injection e' with e1 e2
  subst e1
  exact i.congr hq hs.1 hs.2

theorem dual_stays1 {hy : ℚ} {N W : Nat} {xf : Nat → ℚ} {d d' : Dual ℚ} (i : DualInv W d) (h : OnTrain hy N W xf d.pd1.pd) (n : Nat) {ys : List Bool}
    (e : runC Dual.step d ((List.range n).map xf) = .ok (d', ys)) : OnTrain hy N W (fun i => xf (n + i)) d'.pd1.pd := by
  induction n generalizing d' ys with
  | zero => injection e with e; injection e with e1 e2; subst e1; simpa using h
  | succ n ih =>
    rw [range_snoc] at e
    obtain ⟨d1, o1, o2, e1, e2, -⟩ := runC_split e
    obtain ⟨v, e3, -⟩ := runC_one e2
    have j := (dual_zc_run i e1).1
    obtain ⟨q1, q2, b1, b2, f1, f2, s1, s2, -⟩ := dual_frames j e3
    have := on_step_any (ih e1) f1 s1 (dual_step_inv j e3).i1
    have hf : (fun i => xf (n + 1 + i)) = fun i => xf (n + (i + 1)) := by funext i; congr 1; omega
    rw [hf]; exact this

theorem dual_stays2 {hy : ℚ} {N W : Nat} {xf : Nat → ℚ} {d d' : Dual ℚ} (i : DualInv W d) (h : OnTrain hy N W (fun i => -xf i) d.pd2.pd) (n : Nat) {ys : List Bool}
    (e : runC Dual.step d ((List.range n).map xf) = .ok (d', ys)) : OnTrain hy N W (fun i => -xf (n + i)) d'.pd2.pd := by
  induction n generalizing d' ys with
  | zero => injection e with e; injection e with e1 e2; subst e1; simpa using h
  | succ n ih =>
    rw [range_snoc] at e
    obtain ⟨d1, o1, o2, e1, e2, -⟩ := runC_split e
    obtain ⟨v, e3, -⟩ := runC_one e2
    have j := (dual_zc_run i e1).1
    obtain ⟨q1, q2, b1, b2, f1, f2, s1, s2, -⟩ := dual_frames j e3
    have := on_step_any (ih e1) f2 s2 (dual_step_inv j e3).i2
    have hf : (fun i => -xf (n + 1 + i)) = fun i => -xf (n + (i + 1)) := by funext i; congr 2; omega
    rw [hf]; exact this

/-- After eleven windows of a train (whose negation is one too), whatever came before, both detectors are on it. -/
theorem dual_locked {hyst : ℚ} {W : Nat} {d d' : Dual ℚ} (i : DualInv W d) (hy1 : d.pd1.pd.zc.hyst = -hyst) (hy2 : d.pd2.pd.zc.hyst = -hyst)
    {x x' : Nat → ℚ} {N r w r' w' s s' : Nat} (hx : PulseTrain x hyst N r w) (hx' : PulseTrain x' hyst N r' w') (hneg : ∀ i, x' (s' + i) = -x (s + i))
    (hN : 2 * N ≤ W) (hm1 : d.pd1.pd.minPeriod ≤ N) (hm2 : d.pd2.pd.minPeriod ≤ N) (hex : W ≠ 320 ∨ N ≤ 128) {T : Nat} (hT : 10 * W ≤ T) {ys : List Bool}
    (e : runC Dual.step d ((List.range T).map fun i => x (s + i)) = .ok (d', ys)) :
    OnTrain (-hyst) N W (fun i => x (s + (T + i))) d'.pd1.pd ∧ OnTrain (-hyst) N W (fun i => -x (s + (T + i))) d'.pd2.pd := by
  constructor
  · obtain ⟨t, ht, hl⟩ := OnTrain.lock i.i1 hy1 hx hN hm1 hex s
    rw [show T = t + (T - t) by omega, range_split] at e
    obtain ⟨d1, o1, o2, e1, e2, -⟩ := runC_split e
    obtain ⟨j, ⟨z1, g1⟩, -, m1, -⟩ := dual_zc_run i e1
    have := dual_stays1 j (hl _ _ j.i1 m1 g1) (T - t) e2
    have hf : (fun i => x (s + (T + i))) = fun i => x (s + (t + (T - t + i))) := by funext i; congr 1; omega
    rw [hf]; exact this
  · obtain ⟨t, ht, hl⟩ := OnTrain.lock i.i2 hy2 hx' hN hm2 hex s'
    rw [show T = t + (T - t) by omega, range_split] at e
    obtain ⟨d1, o1, o2, e1, e2, -⟩ := runC_split e
    obtain ⟨j, -, ⟨z1, g1⟩, -, m1, -⟩ := dual_zc_run i e1
    have hl' : ((List.range t).map fun i => x (s + i)).map (-·) = (List.range t).map fun i => x' (s' + i) := by
      rw [List.map_map]; exact List.map_congr_left fun i _ => (hneg i).symm
    rw [hl'] at g1
    have h2 := hl _ _ j.i2 m1 g1
    have hf0 : (fun i => x' (s' + (t + i))) = fun i => -x (s + (t + i)) := by funext i; exact hneg _
    rw [hf0] at h2
    have := dual_stays2 j (xf := fun i => x (s + (t + i))) h2 (T - t) e2
    have hf : (fun i => -x (s + (T + i))) = fun i => -x (s + (t + (T - t + i))) := by funext i; congr 2; omega
    rw [hf]; exact this

/-- Both detectors have the exact pitch, and it is outside the octave of the mean: nothing changes. -/
def DualStuck (sps N : Nat) (c : PitchInfo ℚ) (m : ℚ) (d : Dual ℚ) : Prop :=
  d.pd1.current = exactPitch sps N ∧ d.pd2.current = exactPitch sps N ∧ d.current = c ∧ d.mean = m ∧ d.first = false

theorem dualStuck_step {hy : ℚ} {N W sps : Nat} {c : PitchInfo ℚ} {m : ℚ} (hm : 0 < m) (ho : ¬ Octave m ((sps : ℚ) / N)) {xf : Nat → ℚ} {d d' : Dual ℚ} {o : Bool}
    (hspos : 0 < sps) (h : DualOn hy N W sps xf d) (hx : DualStuck sps N c m d) (e : d.step (xf 0) = .ok (d', o)) : DualStuck sps N c m d' := by
  obtain ⟨d2, o1, o2, e2, -, -, -, g1, g2, dm, m1, m2, m3, m4, m5, hd⟩ := dual_on_step hspos h
  rw [e] at e2
  injection e2 with e2
  injection e2 with e3 e4
  subst e3
  obtain ⟨x1, x2, x3, x4, x5⟩ := hx
  rw [x1, ite_self] at g1
  rw [x2, ite_self] at g2
  have hch : dm.choose = dm := by
    rw [Dual.choose]
    simp only [m1, m2, g1, g2, ite_self]
    rw [if_neg (by rw [m5, x5]; simp), if_neg]
    rw [withinOctave_iff dm (by rw [m4, x4]; exact hm), m4, x4]
    exact ho
  rw [hch, ite_self] at hd
  refine ⟨g1, g2, ?_, ?_, ?_⟩
  · rw [hd, m3, x3]
  · rw [hd, m4, x4]
  · rw [hd, m5, x5]

theorem obs_same {σ ι ο : Type} {P : σ → Bool} {step : σ → ι → C (σ × ο)} {xs : List ι} {a b c : σ} {oa : List Bool} {ob : List ο}
    (h1 : runC (obsStep P step) a xs = .ok (b, oa)) (h2 : runC step a xs = .ok (c, ob)) : c = b := by
  induction xs generalizing a oa ob with
  | nil => injection h1 with h1; injection h1 with h1 _; injection h2 with h2; injection h2 with h2 _; rw [← h1, ← h2]
  | cons x xs ih =>
    obtain ⟨a1, v1, p1, f1, f2, -⟩ := runC_cons h1
    obtain ⟨a2, v2, p2, f3, f4, -⟩ := runC_cons h2
    rw [obsStep, f3, PD.ok_bind] at f1
    injection f1 with f1
    injection f1 with f1 _
    subst f1
    exact ih f2 f4

def dualTest (d : Dual ℚ) : Bool := d.current.frequency == 320

theorem dualStuck_eval : ((Dual.mk' (100 : ℚ) 1600 6400 (1 / 100)).toOption.bind fun d =>
    (runC Dual.step d ((List.range 280).map (rect 20 5 10) ++ (List.range 200).map fun _ => 0)).toOption.bind fun r =>
      (runC (obsStep dualTest Dual.step) r.1 ((List.range 1280).map (rect 50 12 25))).toOption.map fun q =>
        (dualTest r.1 && q.2.all id, d.pd1.pd.zc.window, q.1.first, decide (256 ≤ q.1.mean),
          [q.1.pd1.current.frequency, q.1.pd1.current.periodicity, q.1.pd2.current.frequency, q.1.pd2.current.periodicity])) =
      some (true, 128, false, true, [128, 1, 128, 1]) := by decide +kernel

/-- **C98 violation.**  A dual detector for 100–1600 Hz at 6400 samples per second is fed a 320 Hz square wave for 280 samples, 200
samples of silence, and then a 128 Hz square wave.  Every call succeeds, and from 1280 samples of it on both detectors
inside report exactly 128 Hz, but the dual detector goes on reporting 320 Hz for ever. -/
theorem C98_violation_dual : ∃ d0, Dual.mk' (100 : ℚ) 1600 6400 (1 / 100) = .ok d0 ∧
    PulseTrain (rect 20 5 10) (1 / 100) 20 5 10 ∧ PulseTrain (rect 50 12 25) (1 / 100) 50 12 25 ∧ (∀ t, -rect 50 12 25 t = rect 50 12 25 (25 + t)) ∧
    ∀ T, ∃ d ys, runC Dual.step d0 (((List.range 280).map (rect 20 5 10) ++ (List.range 200).map fun _ => 0) ++ (List.range T).map (rect 50 12 25)) = .ok (d, ys) ∧
      d.current.frequency = 320 ∧ (1280 ≤ T → d.pd1.current = ⟨128, 1⟩ ∧ d.pd2.current = ⟨128, 1⟩) := by
  have hx : PulseTrain (rect 50 12 25) (1 / 100) 50 12 25 := rect_train (by omega) (by omega) (by omega) (by norm_num) (by norm_num)
  have hneg : ∀ t, rect 50 12 25 (25 + t) = -rect 50 12 25 (0 + t) := by
    intro t
    rw [rect, rect, inPulse, inPulse]
    simp only [decide_eq_true_eq, Nat.zero_add]
    have h1 : (25 + t) % 50 = if t % 50 < 25 then t % 50 + 25 else t % 50 - 25 := by split <;> omega
    rw [h1]
    have h2 := Nat.mod_lt t (by omega : 0 < 50)
    by_cases h3 : 12 ≤ t % 50 ∧ t % 50 < 12 + 25
    · rw [if_pos h3, if_neg (by split <;> omega)]
    · rw [if_neg h3, if_pos (by split <;> omega), neg_neg]
  obtain ⟨d0, e0, hev⟩ := toOption_bind_some dualStuck_eval
  obtain ⟨⟨d1, o1⟩, e1, hev⟩ := toOption_bind_some hev
  obtain ⟨⟨d2, o2⟩, e2, hev⟩ := toOption_map_some hev
  simp only [Prod.mk.injEq, Bool.and_eq_true, List.cons.injEq, and_true, decide_eq_true_eq] at hev e2
  obtain ⟨⟨ht1, ho2⟩, hW, hfirst, hmean, hf1, hp1, hf2, hp2⟩ := hev
  have hpre := obs_run e2 ht1 ho2
  have htake : ∀ n, n ≤ 1280 → ((List.range 1280).map (rect 50 12 25)).take n = (List.range n).map (rect 50 12 25) := by
    intro n hn
    rw [← List.map_take, List.take_range, Nat.min_eq_left hn]
  have htest : ∀ d, dualTest d = true → d.current.frequency = 320 := by
    intro d hd
    simpa [dualTest] using hd
  obtain ⟨k1, k2, k3, k4, k5⟩ := dual_mk e0
  obtain ⟨q1, q2, q3⟩ := pitch_mk k1
  obtain ⟨c1, c2⟩ := covers (N := 50) q1 (by norm_num) (by norm_num) (by omega) (by norm_num) (by norm_num)
  obtain ⟨hP, -, w0, -, hz⟩ := pd_mk q1 (by omega)
  have i0 : DualInv d0.pd1.pd.zc.window d0 := by
    obtain ⟨W, i⟩ := dualReach_inv ⟨d0, [], [], e0, by omega, rfl⟩ (by norm_num) (by norm_num)
    exact ⟨hP, by rw [k2]; exact hP, i.c1, i.c2, i.mean, i.cur⟩
  obtain ⟨i1, ⟨z1, g1⟩, ⟨z2, g2⟩, m1, m2, s1, s2⟩ := dual_zc_run i0 e1
  have hy1 : d1.pd1.pd.zc.hyst = -(1 / 100) := by rw [zc_run_hyst hP.bits.ok hP.inv g1, hz]; rfl
  have hy2 : d1.pd2.pd.zc.hyst = -(1 / 100) := by
    rw [k2] at g2
    rw [zc_run_hyst hP.bits.ok hP.inv g2, hz]; rfl
  -- the state after 1280 samples
  obtain ⟨d3, o3, e3, hp3⟩ := hpre 1280
  rw [htake 1280 (le_refl _)] at e3
  have hd3 : d3 = d2 := by
    exact obs_same e2 e3
  subst hd3
  have e3' : runC Dual.step d1 ((List.range 1280).map fun i => rect 50 12 25 (0 + i)) = .ok (d3, o3) := by
    simpa using e3
  obtain ⟨l1, l2⟩ := dual_locked i1 hy1 hy2 hx hx (s := 0) (s' := 25) hneg c1 (by rw [m1]; exact c2) (by rw [m2, k2]; exact c2) (by omega) (by omega) e3'
  simp only [Nat.zero_add] at l1 l2
  obtain ⟨i3, -, -, -, -, s3, s4⟩ := dual_zc_run i1 e3
  have hc1 : d3.pd1.current = exactPitch 6400 50 := by
    have : d3.pd1.current = ⟨d3.pd1.current.frequency, d3.pd1.current.periodicity⟩ := rfl
    rw [this, hf1, hp1, exactPitch]; norm_num
  have hc2 : d3.pd2.current = exactPitch 6400 50 := by
    have : d3.pd2.current = ⟨d3.pd2.current.frequency, d3.pd2.current.periodicity⟩ := rfl
    rw [this, hf2, hp2, exactPitch]; norm_num
  have hon : DualOn (-(1 / 100)) 50 d0.pd1.pd.zc.window 6400 (fun i => rect 50 12 25 (1280 + i)) d3 :=
    ⟨l1, l2, by rw [s3, s1, q3], by rw [s4, s2, k2, q3], Or.inr hc1, Or.inr hc2⟩
  have hst : DualStuck 6400 50 d3.current d3.mean d3 := ⟨hc1, hc2, rfl, rfl, hfirst⟩
  have hoct : ¬ Octave d3.mean (((6400 : Nat) : ℚ) / (50 : Nat)) := by
    rintro ⟨h, -⟩
    norm_num at h
    linarith
  refine ⟨d0, e0, rect_train (by omega) (by omega) (by omega) (by norm_num) (by norm_num), hx, fun t => by rw [hneg]; simp, fun T => ?_⟩
  by_cases hT : T < 1280
  · obtain ⟨d, ys, e, hp⟩ := hpre T
    rw [htake T (by omega)] at e
    exact ⟨d, _, runC_append e1 e, htest d hp, fun h => by omega⟩
  · obtain ⟨d, ys, y1, y2, e, -, -, hp, -⟩ := dual_on_run (by omega) hon (DualStuck 6400 50 d3.current d3.mean) hst
      (fun xf d d' o h hp e => dualStuck_step i3.mean hoct (by omega) h hp e) (T - 1280)
    have := runC_append e3 e
    rw [← range_split, show 1280 + (T - 1280) = T by omega] at this
    refine ⟨d, _, runC_append e1 this, ?_, fun _ => ?_⟩
    · rw [hp.2.2.1]; exact htest d3 hp3
    · rw [hp.1, hp.2.1, exactPitch]; norm_num
end Verif
