import Mathlib.Tactic.Linarith
import Mathlib.Tactic.Positivity
import Verif.Model.PitchDetector
import Verif.Props.PeriodDetector
/-!
# Properties C25, C26: `pitch_detector` and `dual_pitch_detector` (exact arithmetic; safety for any)
-/
namespace Verif
open FloatOps
variable {F : Type} [FloatOps F]

attribute [local irreducible] i32 u64

/-! ## Safety under arbitrary floating-point semantics -/

theorem biasResult_safe (d : Pitch F) (inc : PitchInfo F) : Safe (d.biasResult inc) fun _ => True := by
  rw [Pitch.biasResult]
  simp only []
  split
  · exact Safe.ok trivial
  · split
    · split
      · refine (PD.toI32_safe _).bind fun m _ => ?_
        split <;> exact Safe.ok trivial
      · refine (PD.toI32_safe _).bind fun m _ => ?_
        split <;> exact Safe.ok trivial
    · exact Safe.ok trivial

theorem bias_safe (d : Pitch F) (inc : PitchInfo F) : Safe (d.bias inc) fun d' => d'.pd = d.pd ∧ d'.sps = d.sps := by
  rw [Pitch.bias]
  refine (biasResult_safe _ inc).bind fun r _ => ?_
  simp only []
  split
  · split
    · exact Safe.ok ⟨rfl, rfl⟩
    · split
      · exact Safe.ok ⟨rfl, rfl⟩
      · exact Safe.ok ⟨rfl, rfl⟩
  · exact Safe.ok ⟨rfl, rfl⟩

theorem update_safe (d : Pitch F) : Safe d.update fun r => r.1.pd = d.pd ∧ r.1.sps = d.sps := by
  rw [Pitch.update]
  generalize hd : (if d.pd.zc.isReset = true then { d with current := PitchInfo.zero } else d : Pitch F) = d1
  have h1 : d1.pd = d.pd ∧ d1.sps = d.sps := by rw [← hd]; split <;> exact ⟨rfl, rfl⟩
  simp only []
  split
  · split
    · exact Safe.ok h1
    · split
      · split
        · exact Safe.ok h1
        · exact Safe.ok h1
      · generalize hd2 : (if lt d1.pd.fundamental.periodicity Pitch.minPeriodicity = true then
            { d1 with framesAfterShift := 0 } else d1 : Pitch F) = d2
        have h2 : d2.pd = d.pd ∧ d2.sps = d.sps := by rw [← hd2]; split <;> exact h1
        split
        · refine (bias_safe d2 _).bind fun d3 h3 => Safe.ok ?_
          exact ⟨h3.1.trans h2.1, h3.2.trans h2.2⟩
        · exact Safe.ok h2
  · exact Safe.ok h1

/-- The states of a successfully constructed pitch detector, after feeding some signal. -/
def PitchReach (lowest highest : F) (sps : Nat) (hyst : F) (d : Pitch F) : Prop :=
  ∃ d0 xs ys, Pitch.mk' lowest highest sps hyst = .ok d0 ∧ d0.pd.zc.window ≤ 2 ^ 27 ∧ runC Pitch.step d0 xs = .ok (d, ys)

theorem pitch_mk {lowest highest : F} {sps : Nat} {hyst : F} {d : Pitch F} (h : Pitch.mk' lowest highest sps hyst = .ok d) :
    PD.mk' lowest highest sps hyst = .ok d.pd ∧ d.current = PitchInfo.zero ∧ d.sps = sps := by
  rw [Pitch.mk'] at h
  match e : PD.mk' lowest highest sps hyst, h with
  | .error _, h => cases h
  | .ok pd, h => injection h with h; subst h; exact ⟨rfl, rfl, rfl⟩

theorem pitch_step {W : Nat} {d : Pitch F} (h : PD.PInv W d.pd) (s : F) :
    Safe (d.step s) fun r => PD.PInv W r.1.pd ∧ r.1.sps = d.sps ∧ ∃ b, d.pd.step s = .ok (r.1.pd, b) := by
  rw [Pitch.step]
  rcases PD.step_ok h s with ⟨r, e, hr⟩ | e
  · rw [e, PD.ok_bind]
    refine (update_safe { d with pd := r.1 }).mono fun q hq => ?_
    exact ⟨by rw [hq.1]; exact hr.1, hq.2, r.2, by rw [hq.1]⟩
  · rw [e]; exact Or.inr rfl

/-- **C24** The pitch detector inherits the safety of the period detector: whatever the signal, nothing goes
wrong except possibly a conversion of a quotient of frequencies or periods to `int`. -/
theorem C24_pitch_safe (lowest highest : F) (sps : Nat) (hyst : F) (d0 : Pitch F)
    (h0 : Pitch.mk' lowest highest sps hyst = .ok d0) (hw : d0.pd.zc.window ≤ 2 ^ 27) (xs : List F) :
    (∃ d ys, runC Pitch.step d0 xs = .ok (d, ys) ∧ ys.length = xs.length) ∨
      runC Pitch.step d0 xs = .error .badFloatCast := by
  have inv := (pd_mk (pitch_mk h0).1 hw).1
  suffices H : ∀ (xs : List F) (d : Pitch F), PD.PInv d0.pd.zc.window d.pd →
      Safe (runC Pitch.step d xs) fun r => r.2.length = xs.length by
    rcases H xs d0 inv with ⟨r, e, hl⟩ | e
    · exact Or.inl ⟨r.1, r.2, e, hl⟩
    · exact Or.inr e
  intro xs
  induction xs with
  | nil => intro d _; exact Safe.ok rfl
  | cons x xs ih =>
    intro d hd
    refine (pitch_step hd x).bind fun r hr => ?_
    refine (ih r.1 hr.1).bind fun r2 hr2 => Safe.ok ?_
    simp [hr2]

/-! ## The acceptance rules, in exact arithmetic -/

theorem rat_lt (a b : ℚ) : (FloatOps.lt a b = true) = (a < b) := by simp [FloatOps.lt]
theorem rat_le (a b : ℚ) : (FloatOps.le a b = true) = (a ≤ b) := by simp [FloatOps.le]
theorem rat_eq (a b : ℚ) : (FloatOps.eq a b = true) = (a = b) := by simp [FloatOps.eq]
theorem rat_abs (a : ℚ) : FloatOps.abs a = |a| := by
  rw [FloatOps.abs]
  by_cases h : a < 0
  · rw [if_pos (by rw [rat_lt]; exact h), abs_of_neg h]; rfl
  · rw [if_neg (by rw [rat_lt]; exact h), abs_of_nonneg (not_lt.1 h)]

/-- `f` is harmonically related to `c`: an integer multiple (or fraction), at least double, is within 1/32. -/
def Harmonic (c f : ℚ) : Prop :=
  ∃ m : ℤ, 2 ≤ m ∧ (f < c ∧ |c - f * m| < c / 32 ∨ c ≤ f ∧ |c - f / m| < c / 32)

/-- `c'` is such a multiple or fraction of `f`. -/
def HarmonicTo (c f c' : ℚ) : Prop :=
  |c - c'| < c / 32 ∧ ∃ m : ℤ, 2 ≤ m ∧ (f < c ∧ c' = f * m ∨ c ≤ f ∧ c' = f / m)

theorem toI32_round {x : ℚ} (hx : 0 ≤ x) {m : Int} (h : toI32 (FloatOps.round x) = .ok m) : m = _root_.round x := by
  have f0 : 0 ≤ ⌊x + 1 / 2⌋ := Int.floor_nonneg.2 (by linarith)
  have hr : (FloatOps.round x : ℚ) = ((⌊x + 1 / 2⌋ : Int) : ℚ) := by
    show (if 0 ≤ x then _ else _) = _
    rw [if_pos hx]
  have ht : (FloatOps.trunc (FloatOps.round x) : Option Int) = some ⌊x + 1 / 2⌋ := by
    rw [hr]
    show some (if 0 ≤ (((⌊x + 1 / 2⌋ : Int)) : ℚ) then _ else _) = _
    rw [if_pos (by exact_mod_cast f0), Int.floor_intCast]
  rw [toI32, ht] at h
  simp only [] at h
  split at h
  · injection h with h; rw [← h, round_eq]
  · cases h

theorem harmonic_up {c f : ℚ} (hf : 0 < f) (hfc : f < c) (hn : c / 32 ≤ |c - f|) (h : Harmonic c f) :
    2 ≤ _root_.round (c / f) ∧ |c - f * _root_.round (c / f)| < c / 32 := by
  obtain ⟨k, hk, ⟨-, hk2⟩ | ⟨hc, -⟩⟩ := h
  · have hle : |c - f * _root_.round (c / f)| ≤ |c - f * k| := by
      have h1 : ∀ z : ℤ, |c - f * z| = f * |c / f - z| := by
        intro z
        rw [show c - f * z = f * (c / f - z) by field_simp, abs_mul, abs_of_pos hf]
      rw [h1, h1]
      exact mul_le_mul_of_nonneg_left (round_le _ _) hf.le
    have hlt := lt_of_le_of_lt hle hk2
    refine ⟨?_, hlt⟩
    have h1 : 1 ≤ _root_.round (c / f) := by
      rw [round_eq, Int.le_floor]
      have : 1 < c / f := by rw [lt_div_iff₀ hf]; linarith
      push_cast; linarith
    rcases lt_or_eq_of_le h1 with h1 | h1
    · omega
    · rw [← h1] at hlt
      simp only [Int.cast_one, mul_one] at hlt
      linarith
  · linarith

theorem harmonic_down {c f : ℚ} (hc : 0 < c) (hfc : c ≤ f) (hn : c / 32 ≤ |c - f|) (h : Harmonic c f) :
    2 ≤ _root_.round (f / c) ∧ |c - f / _root_.round (f / c)| < c / 32 := by
  obtain ⟨k, hk, ⟨hc2, -⟩ | ⟨-, hk2⟩⟩ := h
  · linarith
  · obtain ⟨q, hq⟩ : ∃ q, q = f / c := ⟨_, rfl⟩
    have hfq : f = q * c := by rw [hq]; field_simp
    have hq1 : 1 ≤ q := by rw [hq, le_div_iff₀ hc]; linarith
    -- the condition, scaled
    have key : ∀ z : ℤ, 1 ≤ z → (|c - f / z| < c / 32 ↔ |(z : ℚ) - q| < z / 32) := by
      intro z hz
      have hz0 : (0 : ℚ) < z := by exact_mod_cast (by omega : 0 < z)
      have : c - f / z = (c / z) * (z - q) := by rw [hfq]; field_simp
      rw [this, abs_mul, abs_of_pos (by positivity), div_mul_eq_mul_div, div_lt_div_iff₀ hz0 (by norm_num)]
      constructor
      · intro h
        rw [lt_div_iff₀ (by norm_num)]
        by_contra hcon
        have := mul_le_mul_of_nonneg_left (not_lt.1 hcon) hc.le
        linarith
      · intro h
        rw [lt_div_iff₀ (by norm_num)] at h
        have := mul_lt_mul_of_pos_left h hc
        linarith
    have hkq := (key k (by omega)).1 hk2
    rw [← hq]
    have hr1 : 1 ≤ _root_.round q := by
      rw [round_eq, Int.le_floor]; push_cast; linarith
    have hrd : |q - _root_.round q| ≤ 1 / 2 := abs_sub_round q
    have hne : _root_.round q ≠ 1 ∨ ¬ |c - f| < c / 32 := Or.inr (not_lt.2 hn)
    have hgoal : |(_root_.round q : ℚ) - q| < _root_.round q / 32 := by
      by_cases hk16 : k ≤ 16
      · have hk16' : (k : ℚ) ≤ 16 := by exact_mod_cast hk16
        have : _root_.round q = k := by
          rw [round_eq, Int.floor_eq_iff]
          rw [abs_lt] at hkq
          constructor <;> linarith [hkq.1, hkq.2]
        rw [this]; exact hkq
      · have hk17 : (17 : ℚ) ≤ k := by exact_mod_cast (by omega : 17 ≤ k)
        rw [abs_lt] at hkq
        have hql : 16 + 1 / 4 < q := by linarith [hkq.1, hkq.2]
        have hr16 : 16 ≤ _root_.round q := by rw [round_eq, Int.le_floor]; push_cast; linarith
        rcases lt_or_eq_of_le hr16 with h17 | h16
        · have h17' : (17 : ℚ) ≤ _root_.round q := by exact_mod_cast (by omega : 17 ≤ _root_.round q)
          rw [abs_sub_comm]
          linarith
        · have e : _root_.round q = 16 := h16.symm
          have hfl := e
          rw [round_eq, Int.floor_eq_iff] at hfl
          rw [e, abs_lt]
          obtain ⟨f1, f2⟩ := hfl
          push_cast at f1 f2 ⊢
          constructor <;> linarith
    refine ⟨?_, (key _ hr1).2 hgoal⟩
    rcases lt_or_eq_of_le hr1 with h | h
    · omega
    · exfalso
      have := (key _ hr1).2 hgoal
      rw [← h] at this
      simp only [Int.cast_one, div_one] at this
      linarith

/-- The outcomes of the comparison of an estimate with the current pitch. -/
theorem biasResult_spec (d : Pitch ℚ) (inc r : PitchInfo ℚ) (shift : Bool) (h : d.biasResult inc = .ok (r, shift))
    (hc : 0 < d.current.frequency) (hf : 0 < inc.frequency) :
    (|d.current.frequency - inc.frequency| < d.current.frequency / 32 → r = inc ∧ shift = false) ∧
    (d.current.frequency / 32 ≤ |d.current.frequency - inc.frequency| →
      (1 < d.framesAfterShift ∧ Harmonic d.current.frequency inc.frequency ∧
        HarmonicTo d.current.frequency inc.frequency r.frequency ∧ r.periodicity = inc.periodicity ∧ shift = false) ∨
      ((d.framesAfterShift ≤ 1 ∨ ¬ Harmonic d.current.frequency inc.frequency) ∧
        ((90 / 100 < d.pd.fundamental.periodicity ∧ r = inc ∧ shift = true) ∨
         (d.pd.fundamental.periodicity ≤ 90 / 100 ∧ r = d.current ∧ shift = false)))) := by
  have hlast : ∀ r shift, (if lt Pitch.minPeriodicity d.pd.fundamental.periodicity then (inc, true) else (d.current, false)) = (r, shift) →
      ((90 / 100 < d.pd.fundamental.periodicity ∧ r = inc ∧ shift = true) ∨
         (d.pd.fundamental.periodicity ≤ 90 / 100 ∧ r = d.current ∧ shift = false)) := by
    intro r shift h
    split at h
    · rename_i hlt
      rw [rat_lt] at hlt
      injection h with h1 h2
      subst h1 h2
      exact Or.inl ⟨hlt, rfl, rfl⟩
    · rename_i hlt
      rw [rat_lt] at hlt
      injection h with h1 h2
      subst h1 h2
      exact Or.inr ⟨not_lt.1 hlt, rfl, rfl⟩
  rw [Pitch.biasResult] at h
  simp only [] at h
  split at h
  · rename_i hlt
    rw [rat_lt, rat_abs] at hlt
    have hlt' : |d.current.frequency - inc.frequency| < d.current.frequency / 32 := hlt
    injection h with h
    injection h with h1 h2
    subst h1 h2
    exact ⟨fun _ => ⟨rfl, rfl⟩, fun hn => absurd hlt' (not_lt.2 hn)⟩
  · rename_i hnlt
    rw [rat_lt, rat_abs] at hnlt
    have hn : d.current.frequency / 32 ≤ |d.current.frequency - inc.frequency| := not_lt.1 hnlt
    refine ⟨fun hlt => absurd hlt (not_lt.2 hn), fun _ => ?_⟩
    split at h
    · rename_i hfr
      split at h
      · rename_i hlt
        rw [rat_lt] at hlt
        match hm : toI32 (FloatOps.round (FloatOps.div d.current.frequency inc.frequency)), h with
        | .error _, h => cases h
        | .ok m, h =>
          have hm' : m = _root_.round (d.current.frequency / inc.frequency) := toI32_round (by positivity) hm
          rw [PD.ok_bind] at h
          split at h
          · rename_i hcnd
            rw [Bool.and_eq_true, rat_lt, rat_abs] at hcnd
            injection h with h
            injection h with h1 h2
            subst h1 h2
            have h2 : 2 ≤ m := by have := hcnd.1; simp at this; omega
            exact Or.inl ⟨hfr, ⟨m, h2, Or.inl ⟨hlt, hcnd.2⟩⟩, ⟨hcnd.2, m, h2, Or.inl ⟨hlt, rfl⟩⟩, rfl, rfl⟩
          · rename_i hcnd
            injection h with h
            refine Or.inr ⟨Or.inr fun hh => hcnd ?_, hlast r shift h⟩
            obtain ⟨g1, g2⟩ := harmonic_up hf hlt hn hh
            rw [Bool.and_eq_true, rat_lt, rat_abs]
            refine ⟨by rw [hm']; simp; omega, ?_⟩
            rw [hm']; exact g2
      · rename_i hlt
        rw [rat_lt] at hlt
        have hle := not_lt.1 hlt
        match hm : toI32 (FloatOps.round (FloatOps.div inc.frequency d.current.frequency)), h with
        | .error _, h => cases h
        | .ok m, h =>
          have hm' : m = _root_.round (inc.frequency / d.current.frequency) := toI32_round (by positivity) hm
          rw [PD.ok_bind] at h
          split at h
          · rename_i hcnd
            rw [Bool.and_eq_true, rat_lt, rat_abs] at hcnd
            injection h with h
            injection h with h1 h2
            subst h1 h2
            have h2 : 2 ≤ m := by have := hcnd.1; simp at this; omega
            exact Or.inl ⟨hfr, ⟨m, h2, Or.inr ⟨hle, hcnd.2⟩⟩, ⟨hcnd.2, m, h2, Or.inr ⟨hle, rfl⟩⟩, rfl, rfl⟩
          · rename_i hcnd
            injection h with h
            refine Or.inr ⟨Or.inr fun hh => hcnd ?_, hlast r shift h⟩
            obtain ⟨g1, g2⟩ := harmonic_down hc hle hn hh
            rw [Bool.and_eq_true, rat_lt, rat_abs]
            refine ⟨by rw [hm']; simp; omega, ?_⟩
            rw [hm']; exact g2
    · rename_i hfr
      injection h with h
      exact Or.inr ⟨Or.inl (by omega), hlast r shift h⟩

/-- The estimate delivered by the period detector, as a frequency (0 if there is none). -/
def estimate (d : Pitch ℚ) : ℚ :=
  if d.pd.fundamental.period = -1 then 0 else d.sps / d.pd.fundamental.period

open Classical in
/-- The rule book for an estimate `f > 0` of periodicity `p` arriving while the pitch is `c > 0`; `n` is the
number of frames since the last shift (or frame of low periodicity), `c'` and `n'` the values afterwards. -/
def BiasRule (c : PitchInfo ℚ) (n : Nat) (f p : ℚ) (c' : PitchInfo ℚ) (n' : Nat) : Prop :=
  -- within 1/32: followed
  if |c.frequency - f| < c.frequency / 32 then c' = ⟨f, p⟩ ∧ 0 < n'
  -- harmonically related, and the last shift is at least two frames ago: corrected
  else if 1 ≤ n ∧ Harmonic c.frequency f then HarmonicTo c.frequency f c'.frequency ∧ c'.periodicity = p ∧ 0 < n'
  -- a different note: needs high periodicity
  else if 95 / 100 ≤ p then c' = ⟨f, p⟩ ∧ n' = 0
  else c' = c ∧ 0 < n'

open Classical in
/-- The rule book for one call, relating the pitch `c` and counter `n` before the call, the state `d'` after it
and the returned value `r`. (`d'.pd` is the period detector after the call.) -/
def PitchRule (c : PitchInfo ℚ) (n : Nat) (d' : Pitch ℚ) (r : Bool) : Prop :=
  let p := d'.pd.fundamental.periodicity
  let f := estimate d'
  -- a reset of the edge detector clears the pitch
  let c0 : PitchInfo ℚ := if d'.pd.zc.isReset then ⟨0, 0⟩ else c
  if d'.pd.zc.ready = false then d'.current = c0 ∧ r = false
  -- the window had no two loud pulses in both halves
  else if p = -1 then d'.current = ⟨0, 0⟩ ∧ r = false
  else r = true ∧
    -- onset of a note
    if c0.frequency = 0 then
      if 95 / 100 ≤ p ∧ 0 < f then d'.current = ⟨f, p⟩ ∧ d'.framesAfterShift = 0 else d'.current = c0
    else if 0 < f then
      BiasRule c0 (if p < 90 / 100 then 0 else n) f p d'.current d'.framesAfterShift
    else d'.current = c0

theorem bias_spec (d : Pitch ℚ) (inc : PitchInfo ℚ) (d' : Pitch ℚ) (h : d.bias inc = .ok d')
    (hinc : inc.periodicity = d.pd.fundamental.periodicity) (hc : 0 < d.current.frequency) (hf : 0 < inc.frequency) :
    d'.pd = d.pd ∧ d'.sps = d.sps ∧
    BiasRule d.current d.framesAfterShift inc.frequency inc.periodicity d'.current d'.framesAfterShift := by
  rw [Pitch.bias] at h
  simp only [] at h
  match e : Pitch.biasResult { d with framesAfterShift := d.framesAfterShift + 1 } inc, h with
  | .error _, h => cases h
  | .ok (r, shift), h =>
    rw [PD.ok_bind] at h
    obtain ⟨h1, h2⟩ := biasResult_spec _ inc r shift e hc hf
    simp only [] at h h1 h2
    rw [BiasRule]
    by_cases hnear : |d.current.frequency - inc.frequency| < d.current.frequency / 32
    · obtain ⟨rfl, rfl⟩ := h1 hnear
      rw [if_neg (by simp)] at h
      injection h with h
      subst h
      refine ⟨rfl, rfl, ?_⟩
      rw [if_pos hnear]
      exact ⟨rfl, Nat.succ_pos _⟩
    · rw [if_neg hnear]
      rcases h2 (not_lt.1 hnear) with ⟨g1, g2, g3, g4, rfl⟩ | ⟨g1, g2⟩
      · rw [if_neg (by simp)] at h
        injection h with h
        subst h
        refine ⟨rfl, rfl, ?_⟩
        rw [if_pos ⟨by omega, g2⟩]
        exact ⟨g3, g4, Nat.succ_pos _⟩
      · rw [if_neg (by
          rintro ⟨k1, k2⟩
          rcases g1 with g1 | g1
          · omega
          · exact g1 k2)]
        rcases g2 with ⟨g2, rfl, rfl⟩ | ⟨g2, rfl, rfl⟩
        · rw [if_pos rfl] at h
          by_cases hle : 95 / 100 ≤ d.pd.fundamental.periodicity
          · rw [if_pos (by rw [rat_le]; exact hle)] at h
            injection h with h
            subst h
            refine ⟨rfl, rfl, ?_⟩
            rw [if_pos (by rw [hinc]; exact hle)]
            exact ⟨rfl, rfl⟩
          · rw [if_neg (by rw [rat_le]; exact hle), if_neg (by rw [rat_lt]; exact not_lt.2 g2.le)] at h
            injection h with h
            subst h
            refine ⟨rfl, rfl, ?_⟩
            rw [if_neg (by rw [hinc]; exact hle)]
            exact ⟨rfl, Nat.succ_pos _⟩
        · rw [if_neg (by simp)] at h
          injection h with h
          subst h
          refine ⟨rfl, rfl, ?_⟩
          rw [if_neg (by rw [hinc]; linarith)]
          exact ⟨rfl, Nat.succ_pos _⟩

theorem pitch_rules (d d' : Pitch ℚ) (s : ℚ) (r : Bool) (h : d.step s = .ok (d', r)) (h0 : 0 ≤ d.current.frequency) :
    PitchRule d.current d.framesAfterShift d' r := by
  rw [Pitch.step] at h
  match e : d.pd.step s, h with
  | .error _, h => cases h
  | .ok (pd, b), h =>
    rw [PD.ok_bind] at h
    simp only [] at h
    rw [Pitch.update] at h
    generalize hd : (if ({ d with pd := pd } : Pitch ℚ).pd.zc.isReset = true then
      { d with pd := pd, current := PitchInfo.zero } else { d with pd := pd } : Pitch ℚ) = d1 at h
    have h1 : d1.pd = pd ∧ d1.sps = d.sps ∧ d1.framesAfterShift = d.framesAfterShift ∧
        d1.current = (if pd.zc.isReset then ⟨0, 0⟩ else d.current) ∧ 0 ≤ d1.current.frequency := by
      by_cases hr : pd.zc.isReset = true
      · rw [if_pos hr] at hd
        rw [← hd, if_pos hr]; exact ⟨rfl, rfl, rfl, rfl, le_refl (0 : ℚ)⟩
      · rw [if_neg hr] at hd
        rw [← hd, if_neg hr]; exact ⟨rfl, rfl, rfl, rfl, h0⟩
    obtain ⟨hpd, hsps, hfr, hcur, hge⟩ := h1
    have hcalc : ∀ x : Pitch ℚ, x.calculateFrequency = estimate x := by
      intro x
      rw [Pitch.calculateFrequency, estimate]
      by_cases hc : x.pd.fundamental.period = -1
      · rw [if_pos hc, if_pos (by rw [rat_eq]; exact hc)]; rfl
      · rw [if_neg hc, if_neg (by rw [rat_eq]; exact hc)]; rfl
    simp only [hcalc] at h
    rw [← hpd] at hcur
    clear hpd hd
    by_cases hready : d1.pd.zc.ready = true
    · rw [if_pos hready] at h
      by_cases hm1 : d1.pd.fundamental.periodicity = -1
      · rw [if_pos (by rw [rat_eq]; exact hm1)] at h
        injection h with h
        injection h with h2 h3
        subst h2 h3
        simp only [PitchRule]
        rw [if_neg (by rw [hready]; simp), if_pos hm1]
        exact ⟨rfl, trivial⟩
      · rw [if_neg (by rw [rat_eq]; exact hm1)] at h
        by_cases hz : d1.current.frequency = 0
        · rw [if_pos (by rw [rat_eq]; exact hz)] at h
          by_cases hcond : 95 / 100 ≤ d1.pd.fundamental.periodicity ∧ 0 < estimate d1
          · rw [if_pos (by rw [Bool.and_eq_true, rat_le, rat_lt]; exact hcond)] at h
            injection h with h
            injection h with h2 h3
            subst h2 h3
            simp only [PitchRule]
            rw [if_neg (by rw [hready]; simp), if_neg hm1, ← hcur, if_pos hz]
            refine ⟨trivial, ?_⟩
            split
            · exact ⟨rfl, trivial⟩
            · rename_i hh; exact absurd hcond hh
          · rw [if_neg (by rw [Bool.and_eq_true, rat_le, rat_lt]; exact hcond)] at h
            injection h with h
            injection h with h2 h3
            subst h2 h3
            simp only [PitchRule]
            rw [if_neg (by rw [hready]; simp), if_neg hm1, ← hcur, if_pos hz, if_neg hcond]
            exact ⟨trivial, rfl⟩
        · rw [if_neg (by rw [rat_eq]; exact hz)] at h
          generalize hd2 : (if lt d1.pd.fundamental.periodicity Pitch.minPeriodicity = true then
            { d1 with framesAfterShift := 0 } else d1 : Pitch ℚ) = d2 at h
          have h2 : d2.pd = d1.pd ∧ d2.sps = d1.sps ∧ d2.current = d1.current ∧
              d2.framesAfterShift = if d1.pd.fundamental.periodicity < 90 / 100 then 0 else d.framesAfterShift := by
            rw [← hd2]
            by_cases hp : d1.pd.fundamental.periodicity < 90 / 100
            · rw [if_pos (by rw [rat_lt]; exact hp), if_pos hp]; exact ⟨rfl, rfl, rfl, rfl⟩
            · rw [if_neg (by rw [rat_lt]; exact hp), if_neg hp]; exact ⟨rfl, rfl, rfl, hfr⟩
          obtain ⟨k1, k2, k3, k4⟩ := h2
          by_cases hpos : 0 < estimate d1
          · rw [if_pos (by rw [rat_lt]; exact hpos)] at h
            match e3 : d2.bias { frequency := estimate d1, periodicity := d1.pd.fundamental.periodicity }, h with
            | .error _, h => cases h
            | .ok d3, h =>
              rw [PD.ok_bind] at h
              injection h with h
              injection h with h2 h3
              subst h2 h3
              obtain ⟨b1, b2, b3⟩ := bias_spec d2 _ d3 e3 (by rw [k1])
                (by rw [k3]; exact lt_of_le_of_ne hge (Ne.symm hz)) hpos
              have hest : estimate d3 = estimate d1 := by rw [estimate, estimate, b1, b2, k1, k2]
              simp only [PitchRule]
              rw [hest, b1, k1, if_neg (by rw [hready]; simp), if_neg hm1, ← hcur, if_neg hz, if_pos hpos, ← k4, ← k3]
              exact ⟨trivial, b3⟩
          · rw [if_neg (by rw [rat_lt]; exact hpos)] at h
            injection h with h
            injection h with h2 h3
            subst h2 h3
            have hest : estimate d2 = estimate d1 := by rw [estimate, estimate, k1, k2]
            simp only [PitchRule]
            rw [hest, k1, if_neg (by rw [hready]; simp), if_neg hm1, ← hcur, if_neg hz, if_neg hpos]
            exact ⟨trivial, k3⟩
    · rw [if_neg hready] at h
      injection h with h
      injection h with h2 h3
      subst h2 h3
      simp only [PitchRule]
      rw [if_pos (by simpa using hready)]
      exact ⟨hcur, trivial⟩

/-- Reported values: a non-negative frequency, and a periodicity in `[0, 1]`. -/
def PitchOk (c : PitchInfo ℚ) : Prop := 0 ≤ c.frequency ∧ 0 ≤ c.periodicity ∧ c.periodicity ≤ 1

theorem pitchOk_zero : PitchOk ⟨0, 0⟩ := ⟨le_refl _, le_refl _, by norm_num⟩

theorem HarmonicTo.pos {c f c' : ℚ} (h : HarmonicTo c f c') (hf : 0 < f) : 0 < c' := by
  obtain ⟨-, m, hm, h⟩ := h
  have hm' : (0 : ℚ) < m := by exact_mod_cast (by omega : 0 < m)
  rcases h with ⟨-, rfl⟩ | ⟨-, rfl⟩ <;> positivity

theorem pitchRule_ok {c : PitchInfo ℚ} {n : Nat} {d' : Pitch ℚ} {r : Bool} (h : PitchRule c n d' r) (hc : PitchOk c)
    (hp : d'.pd.fundamental.periodicity = -1 ∨ (0 ≤ d'.pd.fundamental.periodicity ∧ d'.pd.fundamental.periodicity ≤ 1)) :
    PitchOk d'.current := by
  unfold PitchRule at h
  generalize hc0 : (if d'.pd.zc.isReset = true then (⟨0, 0⟩ : PitchInfo ℚ) else c) = c0 at h
  have hok0 : PitchOk c0 := by
    rw [← hc0]; split
    · exact pitchOk_zero
    · exact hc
  simp only [] at h
  split at h
  · rw [h.1]; exact hok0
  · split at h
    · rw [h.1]; exact pitchOk_zero
    · rename_i hne
      obtain ⟨hp0, hp1⟩ := hp.resolve_left hne
      obtain ⟨-, h⟩ := h
      split at h
      · split at h
        · rename_i hf; rw [h.1]; exact ⟨hf.2.le, hp0, hp1⟩
        · rw [h]; exact hok0
      · split at h
        · rename_i hf
          generalize (if d'.pd.fundamental.periodicity < 90 / 100 then 0 else _ : Nat) = n0 at h
          unfold BiasRule at h
          split at h
          · rw [h.1]; exact ⟨hf.le, hp0, hp1⟩
          · split at h
            · exact ⟨(h.1.pos hf).le, by rw [h.2.1]; exact hp0, by rw [h.2.1]; exact hp1⟩
            · split at h
              · rw [h.1]; exact ⟨hf.le, hp0, hp1⟩
              · rw [h.1]; exact hok0
        · rw [h]; exact hok0

theorem pitch_run {W : Nat} {d : Pitch ℚ} (hi : PD.PInv W d.pd) (hc : PitchOk d.current) (xs : List ℚ) (d' : Pitch ℚ)
    (ys : List Bool) (h : runC Pitch.step d xs = .ok (d', ys)) :
    PD.PInv W d'.pd ∧ PitchOk d'.current ∧ d'.sps = d.sps := by
  induction xs generalizing d ys with
  | nil => injection h with h; injection h with h1 h2; subst h1; exact ⟨hi, hc, rfl⟩
  | cons x xs ih =>
    rw [runC] at h
    rcases pitch_step hi x with ⟨r, e, hr1, hr2, -⟩ | e
    · rw [e, PD.ok_bind] at h
      have hok := pitchRule_ok (pitch_rules d r.1 x r.2 e hc.1) hc (fok_bounds hr1 hr1.fund)
      match e2 : runC Pitch.step r.1 xs, h with
      | .error _, h => simp only [e2] at h; cases h
      | .ok (d2, ys2), h =>
        simp only [e2] at h
        injection h with h
        injection h with h1 h2
        subst h1
        obtain ⟨k1, k2, k3⟩ := ih hr1 hok ys2 e2
        exact ⟨k1, k2, by rw [k3, hr2]⟩
    · rw [e] at h; cases h

theorem pitchReach_inv {lowest highest : ℚ} {sps : Nat} {hyst : ℚ} {d : Pitch ℚ} (h : PitchReach lowest highest sps hyst d) :
    (∃ W, PD.PInv W d.pd) ∧ PitchOk d.current ∧ d.sps = sps := by
  obtain ⟨d0, xs, ys, h0, hw, hr⟩ := h
  obtain ⟨e1, e2, e3⟩ := pitch_mk h0
  obtain ⟨k1, k2, k3⟩ := pitch_run (pd_mk e1 hw).1 (by rw [e2]; exact pitchOk_zero) xs d ys hr
  exact ⟨⟨_, k1⟩, k2, by rw [k3, e3]⟩

/-- **C21** The pitch detector always reports a periodicity in `[0, 1]` and a frequency that is not negative. -/
theorem C21_pitch (lowest highest : ℚ) (sps : Nat) (hyst : ℚ) (d : Pitch ℚ) (h : PitchReach lowest highest sps hyst d) :
    0 ≤ d.current.frequency ∧ 0 ≤ d.current.periodicity ∧ d.current.periodicity ≤ 1 := (pitchReach_inv h).2.1

/-- **C25** Every call, at every moment of every run, follows the rule book `PitchRule` (exact arithmetic). -/
theorem C25_rules (lowest highest : ℚ) (sps : Nat) (hyst : ℚ) (d : Pitch ℚ) (hd : PitchReach lowest highest sps hyst d)
    (s : ℚ) (d' : Pitch ℚ) (r : Bool) (h : d.step s = .ok (d', r)) :
    PitchRule d.current d.framesAfterShift d' r :=
  pitch_rules d d' s r h (pitchReach_inv hd).2.1.1

/-- **C25** (consequence) While a pitch is reported, it moves by 1/32 or more only to the latest estimate, only
if the periodicity is at least 0.95, and then the call is flagged as a note shift. -/
theorem C25_jump (lowest highest : ℚ) (sps : Nat) (hyst : ℚ) (d : Pitch ℚ) (hd : PitchReach lowest highest sps hyst d)
    (s : ℚ) (d' : Pitch ℚ) (r : Bool) (h : d.step s = .ok (d', r)) (hc' : d'.current.frequency ≠ 0)
    (hj : d.current.frequency / 32 ≤ |d.current.frequency - d'.current.frequency|)
    (hne : d'.current.frequency ≠ d.current.frequency) :
    95 / 100 ≤ d'.pd.fundamental.periodicity ∧ d'.current = ⟨estimate d', d'.pd.fundamental.periodicity⟩ ∧
      d'.framesAfterShift = 0 ∧ r = true := by
  have hr := C25_rules lowest highest sps hyst d hd s d' r h
  unfold PitchRule at hr
  generalize hc0 : (if d'.pd.zc.isReset = true then (⟨0, 0⟩ : PitchInfo ℚ) else d.current) = c0 at hr
  have hkeep : d'.current = c0 → False := by
    intro hh
    rw [← hc0] at hh
    split at hh
    · exact hc' (by rw [hh])
    · exact hne (by rw [hh])
  simp only [] at hr
  split at hr
  · exact absurd hr.1 hkeep
  · split at hr
    · exact absurd (by rw [hr.1]) hc'
    · obtain ⟨hrt, hr⟩ := hr
      split at hr
      · split at hr
        · rename_i hf; exact ⟨hf.1, hr.1, hr.2, hrt⟩
        · exact absurd hr hkeep
      · rename_i hz
        have e0 : c0 = d.current := by
          rw [← hc0]; rw [← hc0] at hz
          split
          · rename_i hh; rw [if_pos hh] at hz; exact absurd rfl hz
          · rfl
        rw [e0] at hr hkeep
        split at hr
        · generalize (if d'.pd.fundamental.periodicity < 90 / 100 then 0 else _ : Nat) = n0 at hr
          unfold BiasRule at hr
          split at hr
          · rename_i hn
            rw [hr.1] at hj
            exact absurd hn (not_lt.2 hj)
          · split at hr
            · exact absurd hr.1.1 (not_lt.2 hj)
            · split at hr
              · rename_i hp; exact ⟨hp, hr.1, hr.2, hrt⟩
              · exact absurd hr.1 hkeep
        · exact absurd hr hkeep

/-- **C25** (consequence) A reported pitch is dropped (set to zero) only when the edge detector is reset or the
window is flagged as lacking two loud pulses in both halves — never because of low periodicity. -/
theorem C25_drop (lowest highest : ℚ) (sps : Nat) (hyst : ℚ) (d : Pitch ℚ) (hd : PitchReach lowest highest sps hyst d)
    (s : ℚ) (d' : Pitch ℚ) (r : Bool) (h : d.step s = .ok (d', r)) (hc : d.current.frequency ≠ 0)
    (hc' : d'.current.frequency = 0) :
    d'.pd.zc.isReset = true ∨ (d'.pd.zc.ready = true ∧ d'.pd.fundamental.periodicity = -1 ∧ r = false) := by
  have hr := C25_rules lowest highest sps hyst d hd s d' r h
  by_cases hres : d'.pd.zc.isReset = true
  · exact Or.inl hres
  right
  unfold PitchRule at hr
  rw [if_neg hres] at hr
  simp only [] at hr
  split at hr
  · rw [hr.1] at hc'; exact absurd hc' hc
  · rename_i hready
    split at hr
    · rename_i hp; exact ⟨by simpa using hready, hp, hr.2⟩
    · exfalso
      obtain ⟨-, hr⟩ := hr
      split at hr
      · rename_i hf
        generalize (if d'.pd.fundamental.periodicity < 90 / 100 then 0 else _ : Nat) = n0 at hr
        unfold BiasRule at hr
        split at hr
        · rw [hr.1] at hc'; exact absurd hc' hf.ne'
        · split at hr
          · exact absurd hc' (hr.1.pos hf).ne'
          · split at hr
            · rw [hr.1] at hc'; exact absurd hc' hf.ne'
            · rw [hr.1] at hc'; exact absurd hc' hc
      · rw [hr] at hc'; exact absurd hc' hc

end Verif
