import Verif.Props.PitchDetector
/-!
# Property C26: `dual_pitch_detector` (exact arithmetic; safety for any arithmetic)
-/
namespace Verif
open FloatOps

attribute [local irreducible] i32 u64

/-- Within an octave of the mean `m`: less than double, more than half. -/
def Octave (m f : ℚ) : Prop := m / 2 < f ∧ f < 2 * m

open Classical in
/-- The estimate closer to the mean (the second one in case of a tie). -/
noncomputable def closer (m : ℚ) (i1 i2 : PitchInfo ℚ) : PitchInfo ℚ :=
  if |i1.frequency - m| < |i2.frequency - m| then i1 else i2

open Classical in
/-- The documented selection: `i1`, `i2` are the pitches reported by the detectors of the positive and the
negated signal after this call, `ready` says that one of them completed a window; the rest is the state of
the dual detector before and after. -/
def DualRule (d : Dual ℚ) (i1 i2 : PitchInfo ℚ) (ready : Bool) (d' : Dual ℚ) : Prop :=
  if ready = false then d'.current = d.current ∧ d'.mean = d.mean ∧ d'.first = d.first ∧ d'.predicted = d.predicted
  -- both have a pitch: take the one closer to the mean, unless it is not within an octave of it
  else if i1.frequency ≠ 0 ∧ i2.frequency ≠ 0 then
    if d.first = true then
      d'.current = closer d.mean i1 i2 ∧ d'.mean = (closer d.mean i1 i2).frequency ∧ d'.first = false ∧ d'.predicted = 0
    else if Octave d.mean (closer d.mean i1 i2).frequency then
      d'.current = closer d.mean i1 i2 ∧ d'.mean = 2 / 9 * (closer d.mean i1 i2).frequency + 7 / 9 * d.mean ∧
        d'.first = false ∧ d'.predicted = 0
    else d'.current = d.current ∧ d'.mean = d.mean ∧ d'.first = false ∧ d'.predicted = d.predicted
  -- neither has one: cleared
  else if i1.frequency = 0 ∧ i2.frequency = 0 then
    d'.current = ⟨0, 0⟩ ∧ d'.mean = d.mean ∧ d'.first = d.first
  -- only one has: unchanged
  else d'.current = d.current ∧ d'.mean = d.mean ∧ d'.first = d.first ∧ d'.predicted = d.predicted

theorem withinOctave_iff (d : Dual ℚ) (hm : 0 < d.mean) (f : ℚ) : d.withinOctave f = true ↔ Octave d.mean f := by
  rw [Dual.withinOctave, Octave]
  by_cases h : d.mean < f
  · rw [if_pos (by rw [rat_lt]; exact h), rat_lt]
    show f < d.mean * 2 ↔ _
    constructor
    · intro h2; constructor <;> linarith
    · rintro ⟨-, h2⟩; linarith
  · rw [if_neg (by rw [rat_lt]; exact h), rat_lt]
    show d.mean / 2 < f ↔ _
    constructor
    · intro h2; constructor <;> linarith
    · rintro ⟨h2, -⟩; exact h2

theorem computePredicted_spec {F : Type} [FloatOps F] (d d' : Dual F) (h : d.computePredicted = .ok d') :
    d'.current = d.current ∧ d'.mean = d.mean ∧ d'.first = d.first ∧ d'.pd1.current = d.pd1.current ∧
      d'.pd2.current = d.pd2.current := by
  have hp : ∀ (x x' : Pitch F) (f : F), x.predictFrequency = .ok (x', f) → x'.current = x.current := by
    intro x x' f h
    rw [Pitch.predictFrequency] at h
    match e : x.pd.predictPeriod, h with
    | .error _, h => cases h
    | .ok (a, b), h =>
      rw [PD.ok_bind] at h
      injection h with h
      injection h with h1 h2
      subst h1; rfl
  rw [Dual.computePredicted] at h
  match e : d.pd1.predictFrequency, h with
  | .error _, h => cases h
  | .ok (p1, f1), h =>
    rw [PD.ok_bind] at h
    simp only [] at h
    have e1 := hp _ _ _ e
    split at h
    · match e2 : d.pd2.predictFrequency, h with
      | .error _, h => cases h
      | .ok (p2, f2), h =>
        rw [PD.ok_bind] at h
        have e3 := hp _ _ _ e2
        simp only [] at h
        split at h
        · injection h with h; subst h; exact ⟨rfl, rfl, rfl, e1, e3⟩
        · injection h with h; subst h; exact ⟨rfl, rfl, rfl, e1, e3⟩
    · injection h with h; subst h; exact ⟨rfl, rfl, rfl, e1, rfl⟩

theorem indet_iff (x : Pitch ℚ) : x.indeterminate = true ↔ x.current.frequency = 0 := by
  rw [Pitch.indeterminate, rat_eq]; rfl

theorem choose_pds (d : Dual ℚ) : d.choose.pd1 = d.pd1 ∧ d.choose.pd2 = d.pd2 := by
  rw [Dual.choose]
  repeat' split
  all_goals exact ⟨rfl, rfl⟩

theorem dual_rules (d : Dual ℚ) (hm : 0 < d.mean) (s : ℚ) (d' : Dual ℚ) (r : Bool) (h : d.step s = .ok (d', r)) :
    ∃ p1 p2 r1 r2, d.pd1.step s = .ok (p1, r1) ∧ d.pd2.step (-s) = .ok (p2, r2) ∧ r = (r1 || r2) ∧
      d'.pd1.current = p1.current ∧ d'.pd2.current = p2.current ∧ DualRule d p1.current p2.current r d' := by
  rw [Dual.step] at h
  match e1 : d.pd1.step s, h with
  | .error _, h => cases h
  | .ok (p1, r1), h =>
    rw [PD.ok_bind] at h
    simp only [] at h
    match e2 : d.pd2.step (FloatOps.neg s), h with
    | .error _, h => cases h
    | .ok (p2, r2), h =>
      rw [PD.ok_bind] at h
      simp only [] at h
      by_cases hr : (r1 || r2) = true
      · rw [if_pos hr] at h
        generalize hdc : (if (!p1.indeterminate && !p2.indeterminate) = true then
          Dual.choose { d with pd1 := p1, pd2 := p2 } else { d with pd1 := p1, pd2 := p2 } : Dual ℚ) = dc at h
        by_cases hboth : p1.current.frequency ≠ 0 ∧ p2.current.frequency ≠ 0
        · have n1 : p1.indeterminate = false := by
            rw [Bool.eq_false_iff, Ne, indet_iff]; exact hboth.1
          have n2 : p2.indeterminate = false := by
            rw [Bool.eq_false_iff, Ne, indet_iff]; exact hboth.2
          rw [if_pos (by rw [n1, n2]; rfl)] at hdc
          have hc1 : dc.pd1 = p1 ∧ dc.pd2 = p2 := by rw [← hdc]; exact choose_pds _
          rw [if_neg (by rw [hc1.1, n1]; simp)] at h
          injection h with h
          injection h with h1 h2
          refine ⟨p1, p2, r1, r2, rfl, rfl, by rw [← h2, hr], by rw [← h1, hc1.1], by rw [← h1, hc1.2], ?_⟩
          have hi : (if lt (FloatOps.abs (sub p1.current.frequency d.mean)) (FloatOps.abs (sub p2.current.frequency d.mean)) = true
              then p1.current else p2.current) = closer d.mean p1.current p2.current := by
            rw [closer]
            by_cases hlt : |p1.current.frequency - d.mean| < |p2.current.frequency - d.mean|
            · rw [if_pos hlt, if_pos (by rw [rat_lt, rat_abs, rat_abs]; exact hlt)]
            · rw [if_neg hlt, if_neg (by rw [rat_lt, rat_abs, rat_abs]; exact hlt)]
          rw [DualRule, if_neg (by rw [← h2]; simp), if_pos hboth]
          rw [← hdc, Dual.choose] at h1
          simp only [hi] at h1
          by_cases hf : d.first = true
          · rw [if_pos hf] at h1 ⊢
            subst h1
            exact ⟨rfl, rfl, rfl, rfl⟩
          · rw [if_neg hf] at h1 ⊢
            by_cases ho : Octave d.mean (closer d.mean p1.current p2.current).frequency
            · rw [if_pos ((withinOctave_iff { d with pd1 := p1, pd2 := p2 } hm _).2 ho)] at h1
              rw [if_pos ho]
              subst h1
              refine ⟨rfl, ?_, by simpa using hf, rfl⟩
              show (2 / 9 : ℚ) * (closer d.mean p1.current p2.current).frequency + (1 - 2 / 9) * d.mean = _
              ring
            · rw [if_neg (fun hh => ho ((withinOctave_iff { d with pd1 := p1, pd2 := p2 } hm _).1 hh))] at h1
              rw [if_neg ho]
              subst h1
              exact ⟨rfl, rfl, by simpa using hf, rfl⟩
        · rw [if_neg (by
            rw [Bool.and_eq_true]
            rintro ⟨k1, k2⟩
            apply hboth
            constructor
            · intro hz; rw [(indet_iff p1).2 hz] at k1; cases k1
            · intro hz; rw [(indet_iff p2).2 hz] at k2; cases k2)] at hdc
          subst hdc
          by_cases hz : p1.current.frequency = 0 ∧ p2.current.frequency = 0
          · rw [if_pos (by rw [(indet_iff p1).2 hz.1, (indet_iff p2).2 hz.2]; rfl)] at h
            match e3 : Dual.computePredicted { d with pd1 := p1, pd2 := p2 }, h with
            | .error _, h => cases h
            | .ok d2, h =>
              rw [PD.ok_bind] at h
              injection h with h
              injection h with h1 h2
              obtain ⟨c1, c2, c3, c4, c5⟩ := computePredicted_spec _ _ e3
              refine ⟨p1, p2, r1, r2, rfl, rfl, by rw [← h2, hr], by rw [← h1]; exact c4, by rw [← h1]; exact c5, ?_⟩
              rw [DualRule, if_neg (by rw [← h2]; simp), if_neg hboth, if_pos hz, ← h1]
              exact ⟨rfl, c2, c3⟩
          · rw [if_neg (by
              rw [Bool.and_eq_true, indet_iff, indet_iff]; exact hz)] at h
            injection h with h
            injection h with h1 h2
            refine ⟨p1, p2, r1, r2, rfl, rfl, by rw [← h2, hr], by rw [← h1], by rw [← h1], ?_⟩
            rw [DualRule, if_neg (by rw [← h2]; simp), if_neg hboth, if_neg hz, ← h1]
            exact ⟨rfl, rfl, rfl, rfl⟩
      · rw [if_neg hr] at h
        injection h with h
        injection h with h1 h2
        refine ⟨p1, p2, r1, r2, rfl, rfl, by rw [← h2]; simpa using hr, by rw [← h1], by rw [← h1], ?_⟩
        rw [DualRule, if_pos h2.symm, ← h1]
        exact ⟨rfl, rfl, rfl, rfl⟩

/-! ## Reachable states -/

/-- The states of a successfully constructed dual detector, after feeding some signal. -/
def DualReach (lowest highest : ℚ) (sps : Nat) (hyst : ℚ) (d : Dual ℚ) : Prop :=
  ∃ d0 xs ys, Dual.mk' lowest highest sps hyst = .ok d0 ∧ d0.pd1.pd.zc.window ≤ 2 ^ 27 ∧ runC Dual.step d0 xs = .ok (d, ys)

structure DualInv (W : Nat) (d : Dual ℚ) : Prop where
  i1 : PD.PInv W d.pd1.pd
  i2 : PD.PInv W d.pd2.pd
  c1 : PitchOk d.pd1.current
  c2 : PitchOk d.pd2.current
  mean : 0 < d.mean
  cur : PitchOk d.current

theorem predictPeriod_inv {F : Type} [FloatOps F] {W : Nat} {p p' : PD F} {x : F} (h : PD.PInv W p) (e : p.predictPeriod = .ok (p', x)) :
    PD.PInv W p' := by
  rw [PD.predictPeriod] at e
  split at e
  · simp only [] at e
    have h' : PD.PInv W { p with predictEdge := p.edgeMark } := ⟨⟨h.bits, h.mid, h.inv⟩, h.weight, h.fund.congr rfl⟩
    split at e
    · match e2 : PD.predictOuter { p with predictEdge := p.edgeMark } (p.zc.numEdges - 1), e with
      | .error _, e => cases e
      | .ok none, e => injection e with e; injection e with e1 e3; subst e1; exact h'
      | .ok (some y), e =>
        injection e with e; injection e with e1 e3; subst e1
        exact ⟨⟨h.bits, h.mid, h.inv⟩, h.weight, h.fund.congr rfl⟩
    · injection e with e; injection e with e1 e3; subst e1; exact h'
  · injection e with e; injection e with e1 e3; subst e1; exact h

theorem computePredicted_inv {W : Nat} {d d' : Dual ℚ} (h1 : PD.PInv W d.pd1.pd) (h2 : PD.PInv W d.pd2.pd)
    (e : d.computePredicted = .ok d') : PD.PInv W d'.pd1.pd ∧ PD.PInv W d'.pd2.pd := by
  have hp : ∀ (x x' : Pitch ℚ) (f : ℚ), PD.PInv W x.pd → x.predictFrequency = .ok (x', f) → PD.PInv W x'.pd := by
    intro x x' f hx h
    rw [Pitch.predictFrequency] at h
    match e : x.pd.predictPeriod, h with
    | .error _, h => cases h
    | .ok (a, b), h =>
      rw [PD.ok_bind] at h
      injection h with h
      injection h with h1 h2
      subst h1
      exact predictPeriod_inv hx e
  rw [Dual.computePredicted] at e
  match e1 : d.pd1.predictFrequency, e with
  | .error _, h => cases h
  | .ok (p1, f1), h =>
    rw [PD.ok_bind] at h
    simp only [] at h
    have k1 := hp _ _ _ h1 e1
    split at h
    · match e2 : d.pd2.predictFrequency, h with
      | .error _, h => cases h
      | .ok (p2, f2), h =>
        rw [PD.ok_bind] at h
        have k2 := hp _ _ _ h2 e2
        simp only [] at h
        split at h
        · injection h with h; subst h; exact ⟨k1, k2⟩
        · injection h with h; subst h; exact ⟨k1, k2⟩
    · injection h with h; subst h; exact ⟨k1, h2⟩

theorem dual_pds {W : Nat} {d d' : Dual ℚ} {s : ℚ} {r : Bool} (h1 : PD.PInv W d.pd1.pd) (h2 : PD.PInv W d.pd2.pd)
    (h : d.step s = .ok (d', r)) : PD.PInv W d'.pd1.pd ∧ PD.PInv W d'.pd2.pd := by
  rw [Dual.step] at h
  match e1 : d.pd1.step s, h with
  | .error _, h => cases h
  | .ok (p1, r1), h =>
    rw [PD.ok_bind] at h
    simp only [] at h
    have k1 : PD.PInv W p1.pd := by
      rcases pitch_step h1 s with ⟨q, eq, hq, -⟩ | eq
      · rw [e1] at eq; injection eq with eq; subst eq; exact hq
      · rw [e1] at eq; cases eq
    match e2 : d.pd2.step (FloatOps.neg s), h with
    | .error _, h => cases h
    | .ok (p2, r2), h =>
      rw [PD.ok_bind] at h
      simp only [] at h
      have k2 : PD.PInv W p2.pd := by
        rcases pitch_step h2 (FloatOps.neg s) with ⟨q, eq, hq, -⟩ | eq
        · rw [e2] at eq; injection eq with eq; subst eq; exact hq
        · rw [e2] at eq; cases eq
      split at h
      · generalize hd1 : (if (!p1.indeterminate && !p2.indeterminate) = true then
          Dual.choose { d with pd1 := p1, pd2 := p2 } else { d with pd1 := p1, pd2 := p2 } : Dual ℚ) = d1 at h
        have hk : d1.pd1 = p1 ∧ d1.pd2 = p2 := by
          rw [← hd1]; split
          · exact choose_pds _
          · exact ⟨rfl, rfl⟩
        split at h
        · match e3 : d1.computePredicted, h with
          | .error _, h => cases h
          | .ok d2, h =>
            rw [PD.ok_bind] at h
            injection h with h; injection h with h _; subst h
            have := computePredicted_inv (d' := d2) (by rw [hk.1]; exact k1) (by rw [hk.2]; exact k2) e3
            exact this
        · injection h with h; injection h with h _; subst h
          rw [hk.1, hk.2]; exact ⟨k1, k2⟩
      · injection h with h; injection h with h _; subst h
        exact ⟨k1, k2⟩

theorem dual_step_inv {W : Nat} {d d' : Dual ℚ} {s : ℚ} {r : Bool} (i : DualInv W d) (h : d.step s = .ok (d', r)) :
    DualInv W d' := by
  obtain ⟨k1, k2⟩ := dual_pds i.i1 i.i2 h
  obtain ⟨p1, p2, r1, r2, e1, e2, -, hc1, hc2, hr⟩ := dual_rules d i.mean s d' r h
  have ok : ∀ (x x' : Pitch ℚ) (s : ℚ) (b : Bool), PD.PInv W x.pd → PitchOk x.current → x.step s = .ok (x', b) → PitchOk x'.current := by
    intro x x' s b hx hc e
    rcases pitch_step hx s with ⟨q, eq, hq, -⟩ | eq
    · rw [e] at eq; injection eq with eq; subst eq
      exact pitchRule_ok (pitch_rules x x' s b e hc.1) hc (fok_bounds hq hq.fund)
    · rw [e] at eq; cases eq
  have o1 := ok _ _ _ _ i.i1 i.c1 e1
  have o2 := ok _ _ _ _ i.i2 i.c2 e2
  have hcl : PitchOk (closer d.mean p1.current p2.current) := by
    rw [closer]; split
    · exact o1
    · exact o2
  have hfin : PitchOk d'.current ∧ 0 < d'.mean := by
    unfold DualRule at hr
    split at hr
    · rw [hr.1, hr.2.1]; exact ⟨i.cur, i.mean⟩
    · split at hr
      · rename_i hne
        have hpos : 0 < (closer d.mean p1.current p2.current).frequency := by
          refine lt_of_le_of_ne hcl.1 (Ne.symm ?_)
          rw [closer]; split
          · exact hne.1
          · exact hne.2
        split at hr
        · rw [hr.1, hr.2.1]; exact ⟨hcl, hpos⟩
        · split at hr
          · rw [hr.1, hr.2.1]; exact ⟨hcl, by have := i.mean; positivity⟩
          · rw [hr.1, hr.2.1]; exact ⟨i.cur, i.mean⟩
      · split at hr
        · rw [hr.1, hr.2.1]; exact ⟨pitchOk_zero, i.mean⟩
        · rw [hr.1, hr.2.1]; exact ⟨i.cur, i.mean⟩
  exact ⟨k1, k2, by rw [hc1]; exact o1, by rw [hc2]; exact o2, hfin.2, hfin.1⟩

theorem dualReach_inv {lowest highest : ℚ} {sps : Nat} {hyst : ℚ} {d : Dual ℚ} (h : DualReach lowest highest sps hyst d)
    (hl : 0 < lowest) (hh : 0 < highest) : ∃ W, DualInv W d := by
  obtain ⟨d0, xs, ys, h0, hw, hr⟩ := h
  have i0 : DualInv d0.pd1.pd.zc.window d0 := by
    rw [Dual.mk'] at h0
    match e1 : Pitch.mk' lowest highest sps hyst, h0 with
    | .error _, h0 => cases h0
    | .ok p, h0 =>
      simp only [PD.ok_bind] at h0
      injection h0 with h0
      subst h0
      obtain ⟨k1, k2, k3⟩ := pitch_mk e1
      refine ⟨(pd_mk k1 hw).1, (pd_mk k1 hw).1, by rw [k2]; exact pitchOk_zero, by rw [k2]; exact pitchOk_zero, ?_, pitchOk_zero⟩
      show (0 : ℚ) < lowest + (highest - lowest) / 2
      linarith
  refine ⟨d0.pd1.pd.zc.window, ?_⟩
  generalize d0.pd1.pd.zc.window = W at i0
  clear h0 hw
  induction xs generalizing d0 ys with
  | nil => injection hr with h; injection h with h1 h2; subst h1; exact i0
  | cons x xs ih =>
    rw [runC] at hr
    match e : d0.step x, hr with
    | .error _, h => cases h
    | .ok (d1, b), h =>
      rw [PD.ok_bind] at h
      match e2 : runC Dual.step d1 xs, h with
      | .error _, h => simp only [e2] at h; cases h
      | .ok (d2, ys2), h =>
        simp only [e2] at h
        injection h with h
        injection h with h1 h2
        subst h1
        exact ih d1 ys2 e2 (dual_step_inv i0 e)

/-- **C26** Every call of the dual detector, at every moment of every run, feeds the signal to one detector and
its negation to the other, and then follows the selection rule `DualRule`; it returns true if either of the
detectors did. -/
theorem C26_rules (lowest highest : ℚ) (sps : Nat) (hyst : ℚ) (hl : 0 < lowest) (hh : 0 < highest) (d : Dual ℚ)
    (hd : DualReach lowest highest sps hyst d) (s : ℚ) (d' : Dual ℚ) (r : Bool) (h : d.step s = .ok (d', r)) :
    ∃ p1 p2 r1 r2, d.pd1.step s = .ok (p1, r1) ∧ d.pd2.step (-s) = .ok (p2, r2) ∧ r = (r1 || r2) ∧
      d'.pd1.current = p1.current ∧ d'.pd2.current = p2.current ∧ DualRule d p1.current p2.current r d' := by
  obtain ⟨W, i⟩ := dualReach_inv hd hl hh
  exact dual_rules d i.mean s d' r h

/-- **C26** (consequence) The reported pitch after a call is the previous one, zero, or one of the two
detectors' own current pitches; and after the first estimate it is never outside an octave of the running
mean when it changes to a nonzero value. -/
theorem C26_source (lowest highest : ℚ) (sps : Nat) (hyst : ℚ) (hl : 0 < lowest) (hh : 0 < highest) (d : Dual ℚ)
    (hd : DualReach lowest highest sps hyst d) (s : ℚ) (d' : Dual ℚ) (r : Bool) (h : d.step s = .ok (d', r)) :
    (d'.current = d.current ∨ d'.current = ⟨0, 0⟩ ∨ d'.current = d'.pd1.current ∨ d'.current = d'.pd2.current) ∧
    (d.first = false → d'.current = d.current ∨ d'.current = ⟨0, 0⟩ ∨
      (d.mean / 2 < d'.current.frequency ∧ d'.current.frequency < 2 * d.mean)) := by
  obtain ⟨p1, p2, r1, r2, -, -, -, hc1, hc2, hr⟩ := C26_rules lowest highest sps hyst hl hh d hd s d' r h
  have hcl : closer d.mean p1.current p2.current = d'.pd1.current ∨ closer d.mean p1.current p2.current = d'.pd2.current := by
    rw [closer, hc1, hc2]; split
    · exact Or.inl rfl
    · exact Or.inr rfl
  unfold DualRule at hr
  split at hr
  · exact ⟨Or.inl hr.1, fun _ => Or.inl hr.1⟩
  · split at hr
    · split at hr
      · rename_i hf
        refine ⟨Or.inr (Or.inr ?_), fun h => by rw [hf] at h; cases h⟩
        rw [hr.1]; exact hcl
      · split at hr
        · rename_i ho
          refine ⟨Or.inr (Or.inr (by rw [hr.1]; exact hcl)), fun _ => Or.inr (Or.inr ?_)⟩
          rw [hr.1]; exact ho
        · exact ⟨Or.inl hr.1, fun _ => Or.inl hr.1⟩
    · split at hr
      · exact ⟨Or.inr (Or.inl hr.1), fun _ => Or.inr (Or.inl hr.1)⟩
      · exact ⟨Or.inl hr.1, fun _ => Or.inl hr.1⟩

/-- A consequence of the octave rule that a user may not expect: after the first estimate, as long as both
detectors report frequencies of at least twice the running mean (or none), that mean never moves, and the
dual detector keeps reporting its old pitch (or zero) whatever they say. -/
theorem C26_lockout (lowest highest : ℚ) (sps : Nat) (hyst : ℚ) (hl : 0 < lowest) (hh : 0 < highest) (d : Dual ℚ)
    (hd : DualReach lowest highest sps hyst d) (hf : d.first = false) (s : ℚ) (d' : Dual ℚ) (r : Bool)
    (h : d.step s = .ok (d', r))
    (h1 : d'.pd1.current.frequency = 0 ∨ 2 * d.mean ≤ d'.pd1.current.frequency)
    (h2 : d'.pd2.current.frequency = 0 ∨ 2 * d.mean ≤ d'.pd2.current.frequency) :
    d'.mean = d.mean ∧ d'.first = false ∧ (d'.current = d.current ∨ d'.current = ⟨0, 0⟩) := by
  obtain ⟨p1, p2, r1, r2, -, -, -, hc1, hc2, hr⟩ := C26_rules lowest highest sps hyst hl hh d hd s d' r h
  rw [hc1] at h1
  rw [hc2] at h2
  unfold DualRule at hr
  split at hr
  · exact ⟨hr.2.1, by rw [hr.2.2.1, hf], Or.inl hr.1⟩
  · split at hr
    · rename_i hne
      rw [if_neg (by rw [hf]; simp), if_neg (by
        rintro ⟨-, ho⟩
        rw [closer] at ho
        split at ho
        · exact absurd ho (not_lt.2 (h1.resolve_left hne.1))
        · exact absurd ho (not_lt.2 (h2.resolve_left hne.2)))] at hr
      exact ⟨hr.2.1, hr.2.2.1, Or.inl hr.1⟩
    · split at hr
      · exact ⟨hr.2.1, by rw [hr.2.2, hf], Or.inr hr.1⟩
      · exact ⟨hr.2.1, by rw [hr.2.2.1, hf], Or.inl hr.1⟩

/-! ## Concrete runs -/

/-- Runs the example dual detector (100–1600 Hz at 6400 samples per second, window of 128 frames). -/
def dualRun (l : List ℚ) : C (Dual ℚ × List Bool) := do
  let p ← Dual.mk' 100 1600 6400 (1 / 100)
  runC Dual.step p l

/-- A square wave of the given half period. -/
def squareWave (half n : Nat) : List ℚ := (List.replicate n (List.replicate half (-1) ++ List.replicate half 1)).flatten

/-- With a 200 Hz square wave (period 32 frames) the dual detector reports 200 Hz. -/
example : ((dualRun (squareWave 16 6)).toOption.map fun r => (r.1.current.frequency, r.1.first)) = some (200, false) := by
  decide +kernel

/-- The lock-out happens: after 200 Hz, a 640 Hz square wave, which both detectors do report as 640 Hz, leaves the
dual detector at 304.76 Hz (an estimate from the transition). -/
example : ((dualRun (squareWave 16 6 ++ squareWave 5 30)).toOption.map fun r =>
    (r.1.pd1.current.frequency, r.1.pd2.current.frequency, r.1.current.frequency)) = some (640, 640, 6400 / 21) := by
  decide +kernel

end Verif
