import Verif.Props.DualPitch
import Verif.Props.PitchFloat
/-!
# Property C26 in single precision
-/
namespace Verif
open FloatOps Rounding
attribute [local irreducible] i32 u64

open Classical in
/-- The estimate closer to the mean (the second one in case of a tie), the two differences being rounded. -/
noncomputable def closer32 (m : ℚ) (i1 i2 : PitchInfo F32) : PitchInfo F32 :=
  if |fl32 (i1.frequency.val - m)| < |fl32 (i2.frequency.val - m)| then i1 else i2

/-- Within an octave of the mean: an estimate above it is less than double, any other more than half, the double and the half being rounded (both are exact unless
the half is subnormal). -/
def Octave32 (m f : ℚ) : Prop := (m < f → f < fl32 (m * 2)) ∧ (f ≤ m → fl32 (m / 2) < f)

open Classical in
/-- As `DualRule`, in single precision. -/
def DualRule32 (d : Dual F32) (i1 i2 : PitchInfo F32) (ready : Bool) (d' : Dual F32) : Prop :=
  if ready = false then d'.current = d.current ∧ d'.mean = d.mean ∧ d'.first = d.first ∧ d'.predicted = d.predicted
  -- both have a pitch: take the one closer to the mean, unless it is not within an octave of it
  else if i1.frequency.val ≠ 0 ∧ i2.frequency.val ≠ 0 then
    if d.first = true then
      d'.current = closer32 d.mean.val i1 i2 ∧ d'.mean = (closer32 d.mean.val i1 i2).frequency ∧ d'.first = false ∧ d'.predicted.val = 0
    else if Octave32 d.mean.val (closer32 d.mean.val i1 i2).frequency.val then
      d'.current = closer32 d.mean.val i1 i2 ∧
        d'.mean.val = fl32 (fl32 (fl32 (2 / 9) * (closer32 d.mean.val i1 i2).frequency.val) + fl32 (fl32 (1 - fl32 (2 / 9)) * d.mean.val)) ∧
        d'.first = false ∧ d'.predicted.val = 0
    else d'.current = d.current ∧ d'.mean = d.mean ∧ d'.first = false ∧ d'.predicted = d.predicted
  -- neither has one: cleared
  else if i1.frequency.val = 0 ∧ i2.frequency.val = 0 then
    d'.current.frequency.val = 0 ∧ d'.current.periodicity.val = 0 ∧ d'.mean = d.mean ∧ d'.first = d.first
  -- only one has: unchanged
  else d'.current = d.current ∧ d'.mean = d.mean ∧ d'.first = d.first ∧ d'.predicted = d.predicted

theorem g32_nine : (lit 9 : F32).val = 9 := by show fl32 9 = 9; exact_mod_cast g32_int 9 (by norm_num)

theorem withinOctave32 (d : Dual F32) (f : F32) : d.withinOctave f = true ↔ Octave32 d.mean.val f.val := by
  rw [Dual.withinOctave, Octave32]
  have e1 : (mul d.mean (lit 2)).val = fl32 (d.mean.val * 2) := by
    show fl32 (d.mean.val * (lit 2 : F32).val) = _
    rw [g32_two]
  have e2 : (div d.mean (lit 2)).val = fl32 (d.mean.val / 2) := by
    show fl32 (d.mean.val / (lit 2 : F32).val) = _
    rw [g32_two]
  by_cases h : d.mean.val < f.val
  · rw [if_pos (by rw [g32_lt]; exact h), g32_lt, e1]
    exact ⟨fun h2 => ⟨fun _ => h2, fun h3 => absurd h (not_lt.2 h3)⟩, fun h2 => h2.1 h⟩
  · rw [if_neg (by rw [g32_lt]; exact h), g32_lt, e2]
    exact ⟨fun h2 => ⟨fun h3 => absurd h3 h, fun _ => h2⟩, fun h2 => h2.2 (not_lt.1 h)⟩

theorem indet32 (x : Pitch F32) : x.indeterminate = true ↔ x.current.frequency.val = 0 := by
  rw [Pitch.indeterminate, g32_eq, g32_zero]

theorem choose_pds32 (d : Dual F32) : d.choose.pd1 = d.pd1 ∧ d.choose.pd2 = d.pd2 := by
  rw [Dual.choose]
  repeat' split
  all_goals exact ⟨rfl, rfl⟩

/-- **C26** (single precision) Every call, in every state, follows the rule book `DualRule32`. -/
theorem C26_rules_binary32 (d : Dual F32) (s : F32) (d' : Dual F32) (r : Bool) (h : d.step s = .ok (d', r)) :
    ∃ p1 p2 r1 r2, d.pd1.step s = .ok (p1, r1) ∧ d.pd2.step ⟨-s.val⟩ = .ok (p2, r2) ∧ r = (r1 || r2) ∧
      d'.pd1.current = p1.current ∧ d'.pd2.current = p2.current ∧ DualRule32 d p1.current p2.current r d' := by
  rw [Dual.step] at h
  match e1 : d.pd1.step s, h with
  | .error _, h => cases h
  | .ok (p1, r1), h =>
    rw [PD.ok_bind] at h
    simp only [] at h
    match e2 : d.pd2.step (FloatOps.neg s), h with
    | .error _, h => cases h
    | .ok (p2, r2), h =>
      rw [PD.ok_bind] at h
      simp only [] at h
      by_cases hr : (r1 || r2) = true
      · rw [if_pos hr] at h
        generalize hdc : (if (!p1.indeterminate && !p2.indeterminate) = true then
          Dual.choose { d with pd1 := p1, pd2 := p2 } else { d with pd1 := p1, pd2 := p2 } : Dual F32) = dc at h
        by_cases hboth : p1.current.frequency.val ≠ 0 ∧ p2.current.frequency.val ≠ 0
        · have n1 : p1.indeterminate = false := by
            rw [Bool.eq_false_iff, Ne, indet32]; exact hboth.1
          have n2 : p2.indeterminate = false := by
            rw [Bool.eq_false_iff, Ne, indet32]; exact hboth.2
          rw [if_pos (by rw [n1, n2]; rfl)] at hdc
          have hc1 : dc.pd1 = p1 ∧ dc.pd2 = p2 := by rw [← hdc]; exact choose_pds32 _
          rw [if_neg (by rw [hc1.1, n1]; simp)] at h
          injection h with h
          injection h with h1 h2
          refine ⟨p1, p2, r1, r2, rfl, rfl, by rw [← h2, hr], by rw [← h1, hc1.1], by rw [← h1, hc1.2], ?_⟩
          have hi : (if lt (FloatOps.abs (sub p1.current.frequency d.mean)) (FloatOps.abs (sub p2.current.frequency d.mean)) = true
              then p1.current else p2.current) = closer32 d.mean.val p1.current p2.current := by
            rw [closer32]
            by_cases hlt : |fl32 (p1.current.frequency.val - d.mean.val)| < |fl32 (p2.current.frequency.val - d.mean.val)|
            · rw [if_pos hlt, if_pos (by rw [g32_lt, g32_abs, g32_abs]; exact hlt)]
            · rw [if_neg hlt, if_neg (by rw [g32_lt, g32_abs, g32_abs]; exact hlt)]
          rw [DualRule32, if_neg (by rw [← h2]; simp), if_pos hboth]
          rw [← hdc, Dual.choose] at h1
          simp only [hi] at h1
          by_cases hf : d.first = true
          · rw [if_pos hf] at h1 ⊢
            subst h1
            exact ⟨rfl, rfl, rfl, g32_zero⟩
          · rw [if_neg hf] at h1 ⊢
            by_cases ho : Octave32 d.mean.val (closer32 d.mean.val p1.current p2.current).frequency.val
            · rw [if_pos ((withinOctave32 { d with pd1 := p1, pd2 := p2 } _).2 ho)] at h1
              rw [if_pos ho]
              subst h1
              refine ⟨rfl, ?_, by simpa using hf, g32_zero⟩
              show fl32 (fl32 (fl32 ((lit 2 : F32).val / (lit 9 : F32).val) * _) + fl32 (fl32 ((lit 1 : F32).val - fl32 ((lit 2 : F32).val / (lit 9 : F32).val)) * d.mean.val)) = _
              rw [g32_two, g32_one, g32_nine]
            · rw [if_neg (fun hh => ho ((withinOctave32 { d with pd1 := p1, pd2 := p2 } _).1 hh))] at h1
              rw [if_neg ho]
              subst h1
              exact ⟨rfl, rfl, by simpa using hf, rfl⟩
        · rw [if_neg (by
            rw [Bool.and_eq_true]
            rintro ⟨k1, k2⟩
            apply hboth
            constructor
            · intro hz; rw [(indet32 p1).2 hz] at k1; cases k1
            · intro hz; rw [(indet32 p2).2 hz] at k2; cases k2)] at hdc
          subst hdc
          by_cases hz : p1.current.frequency.val = 0 ∧ p2.current.frequency.val = 0
          · rw [if_pos (by rw [(indet32 p1).2 hz.1, (indet32 p2).2 hz.2]; rfl)] at h
            match e3 : Dual.computePredicted { d with pd1 := p1, pd2 := p2 }, h with
            | .error _, h => cases h
            | .ok d2, h =>
              rw [PD.ok_bind] at h
              injection h with h
              injection h with h1 h2
              obtain ⟨c1, c2, c3, c4, c5⟩ := computePredicted_spec _ _ e3
              refine ⟨p1, p2, r1, r2, rfl, rfl, by rw [← h2, hr], by rw [← h1]; exact c4, by rw [← h1]; exact c5, ?_⟩
              rw [DualRule32, if_neg (by rw [← h2]; simp), if_neg hboth, if_pos hz, ← h1]
              exact ⟨g32_zero, g32_zero, c2, c3⟩
          · rw [if_neg (by
              rw [Bool.and_eq_true, indet32, indet32]; exact hz)] at h
            injection h with h
            injection h with h1 h2
            refine ⟨p1, p2, r1, r2, rfl, rfl, by rw [← h2, hr], by rw [← h1], by rw [← h1], ?_⟩
            rw [DualRule32, if_neg (by rw [← h2]; simp), if_neg hboth, if_neg hz, ← h1]
            exact ⟨rfl, rfl, rfl, rfl⟩
      · rw [if_neg hr] at h
        injection h with h
        injection h with h1 h2
        refine ⟨p1, p2, r1, r2, rfl, rfl, by rw [← h2]; simpa using hr, by rw [← h1], by rw [← h1], ?_⟩
        rw [DualRule32, if_pos h2.symm, ← h1]
        exact ⟨rfl, rfl, rfl, rfl⟩


/-- **C26** (consequence, single precision) The reported pitch after a call is the previous one, zero, or one of the two detectors' own current pitches; and after the
first estimate, when it changes to a nonzero value, that value is within an octave of the running mean. -/
theorem C26_source_binary32 (d : Dual F32) (s : F32) (d' : Dual F32) (r : Bool) (h : d.step s = .ok (d', r)) :
    (d'.current = d.current ∨ d'.current.frequency.val = 0 ∨ d'.current = d'.pd1.current ∨ d'.current = d'.pd2.current) ∧
    (d.first = false → d'.current = d.current ∨ d'.current.frequency.val = 0 ∨ Octave32 d.mean.val d'.current.frequency.val) := by
  obtain ⟨p1, p2, r1, r2, -, -, -, hc1, hc2, hr⟩ := C26_rules_binary32 d s d' r h
  have hcl : closer32 d.mean.val p1.current p2.current = d'.pd1.current ∨ closer32 d.mean.val p1.current p2.current = d'.pd2.current := by
    rw [closer32, hc1, hc2]; split
    · exact Or.inl rfl
    · exact Or.inr rfl
  unfold DualRule32 at hr
  split at hr
  · exact ⟨Or.inl hr.1, fun _ => Or.inl hr.1⟩
  · split at hr
    · split at hr
      · rename_i hf
        refine ⟨Or.inr (Or.inr ?_), fun hf' => by rw [hf'] at hf; cases hf⟩
        rw [hr.1]; exact hcl
      · split at hr
        · rename_i ho
          refine ⟨Or.inr (Or.inr ?_), fun _ => Or.inr (Or.inr ?_)⟩
          · rw [hr.1]; exact hcl
          · rw [hr.1]; exact ho
        · exact ⟨Or.inl hr.1, fun _ => Or.inl hr.1⟩
    · split at hr
      · exact ⟨Or.inr (Or.inl hr.1), fun _ => Or.inr (Or.inl hr.1)⟩
      · exact ⟨Or.inl hr.1, fun _ => Or.inl hr.1⟩

/-- **C26** (lock-out, single precision) After the first estimate, as long as both detectors report frequencies above the running mean and at least its rounded double
(or none), the mean never moves, and the dual detector keeps reporting its old pitch (or zero). -/
theorem C26_lockout_binary32 (d : Dual F32) (hf : d.first = false) (s : F32) (d' : Dual F32) (r : Bool) (h : d.step s = .ok (d', r))
    (h1 : d'.pd1.current.frequency.val = 0 ∨ d.mean.val < d'.pd1.current.frequency.val ∧ fl32 (d.mean.val * 2) ≤ d'.pd1.current.frequency.val)
    (h2 : d'.pd2.current.frequency.val = 0 ∨ d.mean.val < d'.pd2.current.frequency.val ∧ fl32 (d.mean.val * 2) ≤ d'.pd2.current.frequency.val) :
    d'.mean = d.mean ∧ d'.first = false ∧ (d'.current = d.current ∨ d'.current.frequency.val = 0) := by
  obtain ⟨p1, p2, r1, r2, -, -, -, hc1, hc2, hr⟩ := C26_rules_binary32 d s d' r h
  rw [hc1] at h1
  rw [hc2] at h2
  unfold DualRule32 at hr
  split at hr
  · exact ⟨hr.2.1, by rw [hr.2.2.1, hf], Or.inl hr.1⟩
  · split at hr
    · rename_i hne
      rw [if_neg (by rw [hf]; simp), if_neg (by
        rintro ⟨ho, -⟩
        rw [closer32] at ho
        split at ho
        · have := h1.resolve_left hne.1
          exact absurd (ho this.1) (not_lt.2 this.2)
        · have := h2.resolve_left hne.2
          exact absurd (ho this.1) (not_lt.2 this.2))] at hr
      exact ⟨hr.2.1, hr.2.2.1, Or.inl hr.1⟩
    · split at hr
      · exact ⟨hr.2.2.1, by rw [hr.2.2.2, hf], Or.inr hr.1⟩
      · exact ⟨hr.2.1, by rw [hr.2.2.1, hf], Or.inl hr.1⟩

end Verif
