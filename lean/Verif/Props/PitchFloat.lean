import Verif.Model.Float32
import Verif.Proof.Rounding
import Verif.Proof.RoundScale
import Verif.Props.PitchDetector
import Verif.Props.Smoother
/-!
# Properties C21, C25 in single precision

Every operation rounded to binary32 (`F32`, no overflow).  The case analysis of one call holds for every floating-point semantics.
-/
namespace Verif
open FloatOps Rounding
variable {F : Type} [FloatOps F]

attribute [local irreducible] i32 u64

/-! ## One call, for every floating-point semantics -/

/-- What `bias` does with an estimate `f` of periodicity `p` while the pitch is `c`. -/
def BiasCase (c : PitchInfo F) (f p : F) (c' : PitchInfo F) (n' : Nat) : Prop :=
  let err := div c.frequency (lit 32)
  let near := fun g => lt (FloatOps.abs (sub c.frequency g)) err
  (near f = true ∧ c' = ⟨f, p⟩) ∨
  (near f = false ∧
    ((∃ (m : Int) (g : F), 1 < m ∧ (g = mul f (ofInt m) ∨ g = div f (ofInt m)) ∧ near g = true ∧ c' = ⟨g, p⟩) ∨
     (le (Pitch.onsetPeriodicity : F) p = true ∧ c' = ⟨f, p⟩ ∧ n' = 0) ∨
     (lt (Pitch.minPeriodicity : F) p = true ∧ lt p Pitch.minPeriodicity = true ∧ c' = PitchInfo.zero) ∨
     ((le (Pitch.onsetPeriodicity : F) p = false ∨ lt (Pitch.minPeriodicity : F) p = false) ∧ c' = c)))

theorem biasResult_cases (d : Pitch F) (inc : PitchInfo F) (r : PitchInfo F) (shift : Bool) (h : d.biasResult inc = .ok (r, shift)) :
    let near := fun g => lt (FloatOps.abs (sub d.current.frequency g)) (div d.current.frequency (lit 32))
    (near inc.frequency = true ∧ r = inc ∧ shift = false) ∨
    (near inc.frequency = false ∧
      ((∃ (m : Int) (g : F), 1 < m ∧ (g = mul inc.frequency (ofInt m) ∨ g = div inc.frequency (ofInt m)) ∧ near g = true ∧
          r = ⟨g, inc.periodicity⟩ ∧ shift = false) ∨
       (lt Pitch.minPeriodicity d.pd.fundamental.periodicity = true ∧ r = inc ∧ shift = true) ∨
       (lt Pitch.minPeriodicity d.pd.fundamental.periodicity = false ∧ r = d.current ∧ shift = false))) := by
  intro near
  have hlast : ∀ a b, (if lt Pitch.minPeriodicity d.pd.fundamental.periodicity = true then (inc, true) else (d.current, false)) = (a, b) →
      (lt Pitch.minPeriodicity d.pd.fundamental.periodicity = true ∧ a = inc ∧ b = true) ∨
      (lt Pitch.minPeriodicity d.pd.fundamental.periodicity = false ∧ a = d.current ∧ b = false) := by
    intro a b e
    by_cases hc : lt Pitch.minPeriodicity d.pd.fundamental.periodicity = true
    · rw [if_pos hc] at e; injection e with e1 e2; exact Or.inl ⟨hc, e1.symm, e2.symm⟩
    · rw [if_neg hc] at e; injection e with e1 e2; exact Or.inr ⟨by simpa using hc, e1.symm, e2.symm⟩
  rw [Pitch.biasResult] at h
  simp only [] at h
  by_cases hn : near inc.frequency = true
  · left
    rw [if_pos hn] at h
    injection h with h; injection h with h1 h2
    exact ⟨hn, h1.symm, h2.symm⟩
  · right
    rw [if_neg hn] at h
    refine ⟨by simpa using hn, ?_⟩
    split at h
    · split at h
      · match hm : toI32 (FloatOps.round (FloatOps.div d.current.frequency inc.frequency)), h with
        | .error _, h => cases h
        | .ok m, h =>
          rw [PD.ok_bind] at h
          split at h
          · rename_i hc
            rw [Bool.and_eq_true, decide_eq_true_eq] at hc
            injection h with h; injection h with h1 h2
            exact Or.inl ⟨m, _, hc.1, Or.inl rfl, hc.2, h1.symm, h2.symm⟩
          · injection h with h; exact Or.inr (hlast _ _ h)
      · match hm : toI32 (FloatOps.round (FloatOps.div inc.frequency d.current.frequency)), h with
        | .error _, h => cases h
        | .ok m, h =>
          rw [PD.ok_bind] at h
          split at h
          · rename_i hc
            rw [Bool.and_eq_true, decide_eq_true_eq] at hc
            injection h with h; injection h with h1 h2
            exact Or.inl ⟨m, _, hc.1, Or.inr rfl, hc.2, h1.symm, h2.symm⟩
          · injection h with h; exact Or.inr (hlast _ _ h)
    · injection h with h; exact Or.inr (hlast _ _ h)

theorem bias_cases (d d' : Pitch F) (f : F) (h : d.bias ⟨f, d.pd.fundamental.periodicity⟩ = .ok d') :
    d'.pd = d.pd ∧ d'.sps = d.sps ∧ BiasCase d.current f d.pd.fundamental.periodicity d'.current d'.framesAfterShift := by
  rw [Pitch.bias] at h
  simp only [] at h
  match e : Pitch.biasResult { d with framesAfterShift := d.framesAfterShift + 1 } ⟨f, d.pd.fundamental.periodicity⟩, h with
  | .error _, h => cases h
  | .ok (r, shift), h =>
    rw [PD.ok_bind] at h
    have hc := biasResult_cases _ _ _ _ e
    simp only [] at h hc
    rcases hc with ⟨h1, rfl, rfl⟩ | ⟨h1, hc⟩
    · rw [if_neg (by simp)] at h
      injection h with h; subst h
      exact ⟨rfl, rfl, Or.inl ⟨h1, rfl⟩⟩
    · rcases hc with ⟨m, g, g1, g2, g3, rfl, rfl⟩ | ⟨g1, rfl, rfl⟩ | ⟨g1, rfl, rfl⟩
      · rw [if_neg (by simp)] at h
        injection h with h; subst h
        exact ⟨rfl, rfl, Or.inr ⟨h1, Or.inl ⟨m, g, g1, g2, g3, rfl⟩⟩⟩
      · rw [if_pos rfl] at h
        split at h
        · rename_i hle
          injection h with h; subst h
          exact ⟨rfl, rfl, Or.inr ⟨h1, Or.inr (Or.inl ⟨hle, rfl, rfl⟩)⟩⟩
        · rename_i hle
          split at h
          · rename_i hlt
            injection h with h; subst h
            exact ⟨rfl, rfl, Or.inr ⟨h1, Or.inr (Or.inr (Or.inl ⟨g1, hlt, rfl⟩))⟩⟩
          · injection h with h; subst h
            exact ⟨rfl, rfl, Or.inr ⟨h1, Or.inr (Or.inr (Or.inr ⟨Or.inl (by simpa using hle), rfl⟩))⟩⟩
      · rw [if_neg (by simp)] at h
        injection h with h; subst h
        exact ⟨rfl, rfl, Or.inr ⟨h1, Or.inr (Or.inr (Or.inr ⟨Or.inr g1, rfl⟩))⟩⟩

/-- One call of `pitch_detector::operator()`, from the pitch `c` before it. -/
def StepCase (c : PitchInfo F) (d' : Pitch F) (r : Bool) : Prop :=
  let c0 : PitchInfo F := if d'.pd.zc.isReset then PitchInfo.zero else c
  let p := d'.pd.fundamental.periodicity
  let f := d'.calculateFrequency
  (d'.pd.zc.ready = false ∧ d'.current = c0 ∧ r = false) ∨
  (d'.pd.zc.ready = true ∧ eq p (lit (-1)) = true ∧ d'.current = PitchInfo.zero ∧ r = false) ∨
  (d'.pd.zc.ready = true ∧ eq p (lit (-1)) = false ∧ r = true ∧
    ((eq c0.frequency (lit 0) = true ∧ le (Pitch.onsetPeriodicity : F) p = true ∧ lt (lit 0) f = true ∧ d'.current = ⟨f, p⟩ ∧ d'.framesAfterShift = 0) ∨
     (eq c0.frequency (lit 0) = true ∧ ¬ (le (Pitch.onsetPeriodicity : F) p = true ∧ lt (lit 0) f = true) ∧ d'.current = c0) ∨
     (eq c0.frequency (lit 0) = false ∧ lt (lit 0) f = false ∧ d'.current = c0) ∨
     (eq c0.frequency (lit 0) = false ∧ lt (lit 0) f = true ∧ BiasCase c0 f p d'.current d'.framesAfterShift)))

theorem step_cases (d d' : Pitch F) (s : F) (r : Bool) (h : d.step s = .ok (d', r)) : StepCase d.current d' r := by
  rw [Pitch.step] at h
  match e : d.pd.step s, h with
  | .error _, h => cases h
  | .ok (pd, b), h =>
    rw [PD.ok_bind] at h
    simp only [] at h
    rw [Pitch.update] at h
    generalize hd : (if ({ d with pd := pd } : Pitch F).pd.zc.isReset = true then
      { d with pd := pd, current := PitchInfo.zero } else { d with pd := pd } : Pitch F) = d1 at h
    have h1 : d1.pd = pd ∧ d1.current = (if pd.zc.isReset then PitchInfo.zero else d.current) := by
      by_cases hr : pd.zc.isReset = true
      · rw [if_pos hr] at hd
        rw [← hd, if_pos hr]; exact ⟨rfl, rfl⟩
      · rw [if_neg hr] at hd
        rw [← hd, if_neg hr]; exact ⟨rfl, rfl⟩
    obtain ⟨hpd, hcur⟩ := h1
    rw [← hpd] at hcur
    clear hd
    by_cases hready : d1.pd.zc.ready = true
    · rw [if_pos hready] at h
      by_cases hm1 : eq d1.pd.fundamental.periodicity (lit (-1)) = true
      · rw [if_pos hm1] at h
        injection h with h; injection h with h2 h3
        subst h2 h3
        exact Or.inr (Or.inl ⟨hready, hm1, rfl, rfl⟩)
      · rw [if_neg hm1] at h
        by_cases hz : eq d1.current.frequency (lit 0) = true
        · rw [if_pos hz] at h
          by_cases hc : (le (Pitch.onsetPeriodicity : F) d1.pd.fundamental.periodicity && lt (lit 0) d1.calculateFrequency) = true
          · rw [if_pos hc] at h
            injection h with h; injection h with h2 h3
            subst h2 h3
            rw [Bool.and_eq_true] at hc
            refine Or.inr (Or.inr ⟨hready, by simpa using hm1, rfl, Or.inl ⟨?_, hc.1, hc.2, rfl, rfl⟩⟩)
            show eq (if d1.pd.zc.isReset then PitchInfo.zero else d.current : PitchInfo F).frequency (lit 0) = true
            rw [← hcur]; exact hz
          · rw [if_neg hc] at h
            injection h with h; injection h with h2 h3
            subst h2 h3
            rw [Bool.and_eq_true] at hc
            refine Or.inr (Or.inr ⟨hready, by simpa using hm1, rfl, Or.inr (Or.inl ⟨?_, hc, hcur⟩)⟩)
            rw [← hcur]; exact hz
        · rw [if_neg hz] at h
          generalize hd2 : (if lt d1.pd.fundamental.periodicity Pitch.minPeriodicity = true then
            { d1 with framesAfterShift := 0 } else d1 : Pitch F) = d2 at h
          have h2 : d2.pd = d1.pd ∧ d2.sps = d1.sps ∧ d2.current = d1.current := by
            rw [← hd2]; split <;> exact ⟨rfl, rfl, rfl⟩
          obtain ⟨k1, k2, k3⟩ := h2
          by_cases hpos : lt (lit 0) d1.calculateFrequency = true
          · rw [if_pos hpos] at h
            match e3 : d2.bias { frequency := d1.calculateFrequency, periodicity := d1.pd.fundamental.periodicity }, h with
            | .error _, h => cases h
            | .ok d3, h =>
              rw [PD.ok_bind] at h
              injection h with h; injection h with h2 h3
              subst h2 h3
              rw [← k1] at e3
              obtain ⟨b1, b2, b3⟩ := bias_cases d2 d3 _ e3
              have hcf : d3.calculateFrequency = d1.calculateFrequency := by
                rw [Pitch.calculateFrequency, Pitch.calculateFrequency, b1, b2, k1, k2]
              unfold StepCase
              rw [hcf, b1, k1, ← hcur]
              refine Or.inr (Or.inr ⟨hready, by simpa using hm1, rfl, Or.inr (Or.inr (Or.inr ⟨by simpa using hz, hpos, ?_⟩))⟩)
              rw [k3, k1] at b3; exact b3
          · rw [if_neg hpos] at h
            injection h with h; injection h with h2 h3
            subst h2 h3
            have hcf : d2.calculateFrequency = d1.calculateFrequency := by
              rw [Pitch.calculateFrequency, Pitch.calculateFrequency, k1, k2]
            unfold StepCase
            rw [hcf, k1, ← hcur]
            exact Or.inr (Or.inr ⟨hready, by simpa using hm1, rfl, Or.inr (Or.inr (Or.inl ⟨by simpa using hz, by simpa using hpos, k3⟩))⟩)
    · rw [if_neg hready] at h
      injection h with h; injection h with h2 h3
      subst h2 h3
      exact Or.inl ⟨by simpa using hready, hcur, rfl⟩

/-! ## Single precision -/

theorem g32_lt (a b : F32) : (lt a b = true) ↔ a.val < b.val := by simp [FloatOps.lt]
theorem g32_lt' (a b : F32) : (lt a b = false) ↔ b.val ≤ a.val := by simp [FloatOps.lt]
theorem g32_le (a b : F32) : (le a b = true) ↔ a.val ≤ b.val := by simp [FloatOps.le]
theorem g32_le' (a b : F32) : (le a b = false) ↔ b.val < a.val := by simp [FloatOps.le]
theorem g32_eq (a b : F32) : (eq a b = true) ↔ a.val = b.val := by simp [FloatOps.eq]
theorem g32_eq' (a b : F32) : (eq a b = false) ↔ a.val ≠ b.val := by simp [FloatOps.eq]
theorem g32_int (i : Int) (h : |i| ≤ 2 ^ 24) : fl32 (i : ℚ) = i := fl32_lawful.fix _ (rep_int (by norm_num) (by exact_mod_cast h))
theorem g32_zero : (lit 0 : F32).val = 0 := by show fl32 0 = 0; exact fl32_lawful.zero
theorem g32_one : (lit 1 : F32).val = 1 := by show fl32 1 = 1; exact_mod_cast g32_int 1 (by norm_num)
theorem g32_m1 : (lit (-1) : F32).val = -1 := by show fl32 (-1) = -1; exact_mod_cast g32_int (-1) (by norm_num)
theorem g32_two : (lit 2 : F32).val = 2 := by show fl32 2 = 2; exact_mod_cast g32_int 2 (by norm_num)
theorem g32_32 : (lit 32 : F32).val = 32 := by show fl32 32 = 32; exact_mod_cast g32_int 32 (by norm_num)
theorem g32_abs (a : F32) : (FloatOps.abs a).val = |a.val| := by
  rw [FloatOps.abs]
  by_cases h : a.val < 0
  · rw [if_pos (by rw [g32_lt, g32_zero]; exact h), abs_of_neg h]; rfl
  · rw [if_neg (by rw [g32_lt, g32_zero]; exact h), abs_of_nonneg (not_lt.1 h)]
theorem g32_near (c g : F32) : (lt (FloatOps.abs (sub c g)) (div c (lit 32)) = true) ↔ |fl32 (c.val - g.val)| < fl32 (c.val / 32) := by
  rw [g32_lt, g32_abs]
  show |fl32 (c.val - g.val)| < fl32 (c.val / (lit 32 : F32).val) ↔ _
  rw [g32_32]

/-- Two pitches that are exactly within less than a 32nd may or may not compare as such after rounding, but two that are exactly a 32nd or more apart never do. -/
theorem near_exact {c g : ℚ} (h : c / 32 ≤ |c - g|) : ¬ |fl32 (c - g)| < fl32 (c / 32) := by
  have := fl32_lawful.mono _ _ h
  rw [show fl32 |c - g| = |fl32 (c - g)| by
    rcases le_total 0 (c - g) with hh | hh
    · rw [abs_of_nonneg hh, abs_of_nonneg (fl32_lawful.nonneg hh)]
    · rw [abs_of_nonpos hh, abs_of_nonpos (fl32_lawful.nonpos hh), fl32_lawful.neg]] at this
  exact not_lt.2 this

theorem half_weight {W : Nat} (hW : 1 ≤ W) (hW2 : W ≤ 2 ^ 28) (c : Nat) (hc : 2 * c ≤ W) :
    fl32 (fl32 (c : ℚ) * fl32 (2 / fl32 (W : ℚ))) ≤ 1 := by
  have hW' : (1 : ℚ) ≤ W := by exact_mod_cast hW
  have hW2' : (W : ℚ) ≤ 2 ^ 28 := by exact_mod_cast hW2
  have h1 : fl32 (1 : ℚ) = 1 := by exact_mod_cast g32_int 1 (by norm_num)
  have h28 : fl32 ((2 : ℚ) ^ 28) = 2 ^ 28 := fl32_lawful.fix _ (by exact_mod_cast rep_zpow (p := 24) (emin := -149) (e := 28) (by norm_num))
  have hv : (1 : ℚ) ≤ fl32 (W : ℚ) := by rw [← h1]; exact fl32_lawful.mono _ _ hW'
  have hv2 : fl32 (W : ℚ) ≤ 2 ^ 28 := by rw [← h28]; exact fl32_lawful.mono _ _ hW2'
  have hh : fl32 (c : ℚ) ≤ fl32 (W : ℚ) / 2 := by
    have e : fl32 (2 * ((W : ℚ) / 2)) = 2 * fl32 ((W : ℚ) / 2) := by
      apply rnd_two_mul
      rw [abs_of_nonneg (by positivity)]
      have : (2 : ℚ) ^ ((-149 : ℤ) + ((24 : ℕ) - 1)) ≤ (2 : ℚ) ^ (-1 : ℤ) := zpow_le_zpow_right₀ (by norm_num) (by norm_num)
      have h2 : (2 : ℚ) ^ (-1 : ℤ) = 1 / 2 := by norm_num
      rw [h2] at this
      linarith
    rw [show 2 * ((W : ℚ) / 2) = W by ring] at e
    have hm := fl32_lawful.mono (c : ℚ) ((W : ℚ) / 2) (by
      rw [le_div_iff₀ (by norm_num)]; exact_mod_cast (by omega : c * 2 ≤ W))
    linarith
  have hc0 : 0 ≤ fl32 (c : ℚ) := fl32_lawful.nonneg (by positivity)
  generalize fl32 (W : ℚ) = v at hv hh hv2 ⊢
  generalize fl32 (c : ℚ) = a at hh hc0 ⊢
  have hv0 : 0 < v := by linarith
  have hq : (2 : ℚ) / 2 ^ 28 ≤ 2 / v := by
    rw [div_le_div_iff₀ (by norm_num) hv0]; linarith
  have hw : fl32 (2 / v) ≤ 2 / v * (1 + 1 / 2 ^ 24) := by
    have := fl32_lawful.err (2 / v)
    rw [abs_of_nonneg (a := 2 / v) (by positivity)] at this
    have hs : (2 : ℚ) ^ (-149 : ℤ) / 2 ≤ 2 / v / 2 ^ 24 := by
      have : (2 : ℚ) ^ (-149 : ℤ) ≤ 2 ^ (-60 : ℤ) := zpow_le_zpow_right₀ (by norm_num) (by norm_num)
      have h60 : (2 : ℚ) ^ (-60 : ℤ) = 1 / 2 ^ 60 := by norm_num
      rw [h60] at this
      have h2 : (2 : ℚ) / 2 ^ 28 / 2 ^ 24 ≤ 2 / v / 2 ^ 24 := by
        apply div_le_div_of_nonneg_right hq; norm_num
      norm_num at this h2 ⊢
      linarith
    rw [max_eq_left hs] at this
    have := (abs_le.1 this).2
    linarith
  have hw0 : 0 ≤ fl32 (2 / v) := fl32_lawful.nonneg (by positivity)
  have hp : a * fl32 (2 / v) ≤ 1 + 2 ^ (-24 : ℤ) := by
    calc a * fl32 (2 / v) ≤ v / 2 * (2 / v * (1 + 1 / 2 ^ 24)) := by
          apply mul_le_mul hh hw hw0; positivity
      _ = 1 + 2 ^ (-24 : ℤ) := by field_simp
  have := fl32_lawful.mono _ _ hp
  have ht := tie_pow (k := 0) (by norm_num)
  rw [zpow_zero, show (0 : ℤ) - 24 = -24 by norm_num] at ht
  rwa [ht] at this

/-- The periodicity the code computes for `c` mismatches is between 0 and 1 also after rounding. -/
theorem periodicity32 {W c : Nat} (hW : ZC.WOk W) (hc : c ≤ PD.cmpLen W) (p : PD F32) (hp : p.weight = div (lit 2) (ofInt W)) :
    0 ≤ (PD.periodicityOf p c).val ∧ (PD.periodicityOf p c).val ≤ 1 := by
  have hcl := PD.cmpLen_le hW
  have hge := hW.ge
  have hlt := hW.lt
  have h1 : (PD.periodicityOf p c).val = fl32 (1 - fl32 (fl32 (c : ℚ) * fl32 (2 / fl32 (W : ℚ)))) := by
    show fl32 ((lit 1 : F32).val - fl32 (fl32 ((c : Int) : ℚ) * p.weight.val)) = _
    rw [hp]
    show fl32 ((lit 1 : F32).val - fl32 (fl32 ((c : Int) : ℚ) * fl32 ((lit 2 : F32).val / fl32 ((W : Int) : ℚ)))) = _
    rw [g32_one, g32_two, Int.cast_natCast, Int.cast_natCast]
  have h2 := half_weight (W := W) (by omega) (by omega) c (by omega)
  have h3 : 0 ≤ fl32 (fl32 (c : ℚ) * fl32 (2 / fl32 (W : ℚ))) :=
    fl32_lawful.nonneg (mul_nonneg (fl32_lawful.nonneg (by positivity)) (fl32_lawful.nonneg (div_nonneg (by norm_num) (fl32_lawful.nonneg (by positivity)))))
  rw [h1]
  refine ⟨fl32_lawful.nonneg (by linarith), ?_⟩
  have h4 : fl32 (1 : ℚ) = 1 := by exact_mod_cast g32_int 1 (by norm_num)
  rw [← h4]
  apply fl32_lawful.mono
  rw [h4]; linarith

theorem fok32 {W : Nat} {p : PD F32} (h : PD.PInv W p) {x : F32} (hx : PD.FOk W p x) : x.val = -1 ∨ (0 ≤ x.val ∧ x.val ≤ 1) := by
  rcases hx with h1 | h1 | ⟨c, hc, h1⟩
  · left; rw [h1, g32_m1]
  · right; rw [h1, g32_zero]; norm_num
  · right; rw [h1]; exact periodicity32 h.bits.ok hc p h.weight

/-- **C21** (single precision) At every moment of every run the periodicity of the fundamental is in `[0, 1]` or the flag `-1`: rounding never pushes it outside. -/
theorem C21_periodicity_binary32 (lowest highest hyst : F32) (sps : Nat) (p : PD F32) (h : PReach lowest highest sps hyst p) :
    p.fundamental.periodicity.val = -1 ∨ (0 ≤ p.fundamental.periodicity.val ∧ p.fundamental.periodicity.val ≤ 1) :=
  fok32 (preach_inv h).1 (preach_inv h).1.fund

/-- **C21/C24** (single precision) `harmonic(index)` never reads outside the bitset, and its result has the same range. -/
theorem C21_harmonic_binary32 (lowest highest hyst : F32) (sps : Nat) (p : PD F32) (h : PReach lowest highest sps hyst p) (index : Nat) :
    ∃ x, p.harmonic index = .ok x ∧ (x.val = -1 ∨ (0 ≤ x.val ∧ x.val ≤ 1)) := by
  obtain ⟨i, -⟩ := preach_inv h
  rw [PD.harmonic]
  have hz : ∃ x : F32, (Except.ok (lit 0) : C F32) = .ok x ∧ (x.val = -1 ∨ (0 ≤ x.val ∧ x.val ≤ 1)) :=
    ⟨_, rfl, Or.inr (by rw [g32_zero]; norm_num)⟩
  split
  · split
    · exact ⟨_, rfl, fok32 i i.fund⟩
    · simp only []
      split
      · rename_i ht
        generalize htg : (div p.fundamental.period (ofInt index) : F32) = target at ht ⊢
        rw [Bool.and_eq_true, g32_le, g32_lt] at ht
        obtain ⟨t1, t2⟩ := ht
        have hmid := i.mid
        have hlt := i.bits.ok.lt
        have hmv : (ofInt (p.midPoint : Int) : F32).val = (p.midPoint : ℚ) := by
          show fl32 ((p.midPoint : Int) : ℚ) = _
          obtain ⟨k, hk⟩ := i.bits.ok.even
          have hm : p.midPoint = 32 * k := by omega
          rw [hm, Int.cast_natCast]
          apply fl32_lawful.fix
          refine ⟨k, 5, ?_, by norm_num, by push_cast; ring⟩
          rw [abs_of_nonneg (by positivity)]
          have : k ≤ 2 ^ 24 := by omega
          exact_mod_cast this
        rw [hmv] at t2
        have t0 : 0 ≤ target.val := le_trans (fl32_lawful.nonneg (by positivity)) t1
        generalize htv : target.val = t at t0 t1 t2
        have f0 : 0 ≤ ⌊t + 1 / 2⌋ := Int.floor_nonneg.2 (by linarith)
        have f1 : ⌊t + 1 / 2⌋ ≤ (p.midPoint : Int) := by
          have : ⌊t + 1 / 2⌋ < (p.midPoint : Int) + 1 := by
            rw [Int.floor_lt]; push_cast; linarith
          omega
        have hr : (FloatOps.round target : F32).val = ((⌊t + 1 / 2⌋ : Int) : ℚ) := by
          show (if 0 ≤ target.val then _ else _) = _
          rw [htv, if_pos t0]
        have ht : (FloatOps.trunc (FloatOps.round target) : Option Int) = some ⌊t + 1 / 2⌋ := by
          show (FloatOps.trunc (FloatOps.round target : F32).val : Option Int) = _
          rw [hr]
          show some (if 0 ≤ (((⌊t + 1 / 2⌋ : Int)) : ℚ) then _ else _) = _
          rw [if_pos (by exact_mod_cast f0), Int.floor_intCast]
        have hu : toU64 (FloatOps.round target : F32) = .ok ⌊t + 1 / 2⌋.toNat := by
          rw [toU64, ht]; simp only []; rw [if_pos ⟨f0, by omega⟩]
        obtain ⟨c, e, hc⟩ := PD.acf_ok i.bits ⌊t + 1 / 2⌋.toNat (by omega)
        rw [hu, PD.ok_bind, e, PD.ok_bind]
        exact ⟨_, rfl, Or.inr (periodicity32 i.bits.ok hc p i.weight)⟩
      · exact hz
  · exact hz

/-- Reported values: a non-negative frequency, and a periodicity in `[0, 1]`. -/
def PitchOk32 (c : PitchInfo F32) : Prop := 0 ≤ c.frequency.val ∧ 0 ≤ c.periodicity.val ∧ c.periodicity.val ≤ 1

theorem pitchOk32_zero : PitchOk32 PitchInfo.zero := by
  unfold PitchOk32
  show 0 ≤ (lit 0 : F32).val ∧ 0 ≤ (lit 0 : F32).val ∧ (lit 0 : F32).val ≤ 1
  rw [g32_zero]; norm_num

theorem stepCase_ok32 {c : PitchInfo F32} {d' : Pitch F32} {r : Bool} (h : StepCase c d' r) (hc : PitchOk32 c)
    (hp : d'.pd.fundamental.periodicity.val = -1 ∨ (0 ≤ d'.pd.fundamental.periodicity.val ∧ d'.pd.fundamental.periodicity.val ≤ 1)) :
    PitchOk32 d'.current := by
  unfold StepCase at h
  generalize hc0 : (if d'.pd.zc.isReset = true then (PitchInfo.zero : PitchInfo F32) else c) = c0 at h
  have hok0 : PitchOk32 c0 := by
    rw [← hc0]; split
    · exact pitchOk32_zero
    · exact hc
  simp only [] at h
  rcases h with ⟨-, e, -⟩ | ⟨-, -, e, -⟩ | ⟨-, hne, -, h⟩
  · rw [e]; exact hok0
  · rw [e]; exact pitchOk32_zero
  · rw [g32_eq', g32_m1] at hne
    obtain ⟨hp0, hp1⟩ := hp.resolve_left hne
    have hpos : lt (lit 0) d'.calculateFrequency = true → 0 < d'.calculateFrequency.val := by
      intro h; rw [g32_lt, g32_zero] at h; exact h
    rcases h with ⟨-, -, hf, e, -⟩ | ⟨-, -, e⟩ | ⟨-, -, e⟩ | ⟨-, hf, h⟩
    · rw [e]; exact ⟨(hpos hf).le, hp0, hp1⟩
    · rw [e]; exact hok0
    · rw [e]; exact hok0
    · have hf0 := hpos hf
      rcases h with ⟨-, e⟩ | ⟨-, ⟨m, g, hm, hg, -, e⟩ | ⟨-, e, -⟩ | ⟨-, -, e⟩ | ⟨-, e⟩⟩
      · rw [e]; exact ⟨hf0.le, hp0, hp1⟩
      · rw [e]
        refine ⟨?_, hp0, hp1⟩
        have hm0 : (0 : ℚ) ≤ (ofInt m : F32).val := fl32_lawful.nonneg (by exact_mod_cast (by omega : (0 : Int) ≤ m))
        rcases hg with rfl | rfl
        · exact fl32_lawful.nonneg (mul_nonneg hf0.le hm0)
        · exact fl32_lawful.nonneg (div_nonneg hf0.le hm0)
      · rw [e]; exact ⟨hf0.le, hp0, hp1⟩
      · rw [e]; exact pitchOk32_zero
      · rw [e]; exact hok0

theorem pitch_run32 {W : Nat} {d : Pitch F32} (hi : PD.PInv W d.pd) (hc : PitchOk32 d.current) (xs : List F32) (d' : Pitch F32)
    (ys : List Bool) (h : runC Pitch.step d xs = .ok (d', ys)) : PD.PInv W d'.pd ∧ PitchOk32 d'.current ∧ d'.sps = d.sps := by
  induction xs generalizing d ys with
  | nil => injection h with h; injection h with h1 h2; subst h1; exact ⟨hi, hc, rfl⟩
  | cons x xs ih =>
    rw [runC] at h
    rcases pitch_step hi x with ⟨r, e, hr1, hr2, -⟩ | e
    · rw [e, PD.ok_bind] at h
      have hok := stepCase_ok32 (step_cases d r.1 x r.2 e) hc (fok32 hr1 hr1.fund)
      match e2 : runC Pitch.step r.1 xs, h with
      | .error _, h => simp only [e2] at h; cases h
      | .ok (d2, ys2), h =>
        simp only [e2] at h
        injection h with h
        injection h with h1 h2
        subst h1
        obtain ⟨k1, k2, k3⟩ := ih hr1 hok ys2 e2
        exact ⟨k1, k2, by rw [k3, hr2]⟩
    · rw [e] at h; cases h

theorem pitchReach32 {lowest highest hyst : F32} {sps : Nat} {d : Pitch F32} (h : PitchReach lowest highest sps hyst d) :
    (∃ W, PD.PInv W d.pd) ∧ PitchOk32 d.current ∧ d.sps = sps := by
  obtain ⟨d0, xs, ys, h0, hw, hr⟩ := h
  obtain ⟨e1, e2, e3⟩ := pitch_mk h0
  obtain ⟨k1, k2, k3⟩ := pitch_run32 (pd_mk e1 hw).1 (by rw [e2]; exact pitchOk32_zero) xs d ys hr
  exact ⟨⟨_, k1⟩, k2, by rw [k3, e3]⟩

/-- **C21** (single precision) The pitch detector always reports a periodicity in `[0, 1]` and a frequency that is not negative. -/
theorem C21_pitch_binary32 (lowest highest hyst : F32) (sps : Nat) (d : Pitch F32) (h : PitchReach lowest highest sps hyst d) :
    0 ≤ d.current.frequency.val ∧ 0 ≤ d.current.periodicity.val ∧ d.current.periodicity.val ≤ 1 := (pitchReach32 h).2.1

/-- The estimate of the period detector as a frequency, with the one rounded division (0 if there is none). -/
def estimate32 (d : Pitch F32) : ℚ :=
  if d.pd.fundamental.period.val = -1 then 0 else fl32 (fl32 d.sps / d.pd.fundamental.period.val)

theorem estimate32_eq (d : Pitch F32) : d.calculateFrequency.val = estimate32 d := by
  rw [Pitch.calculateFrequency, estimate32]
  by_cases h : d.pd.fundamental.period.val = -1
  · rw [if_pos h, if_pos (by rw [g32_eq, g32_m1]; exact h), g32_zero]
  · rw [if_neg h, if_neg (by rw [g32_eq, g32_m1]; exact h)]
    show fl32 (fl32 ((d.sps : Int) : ℚ) / _) = _
    rw [Int.cast_natCast]

/-- **C25** (single precision) While a pitch is reported, it moves by 1/32 or more only to the latest estimate, only if the periodicity is at least 0.95 (rounded to
single precision), and then the call is flagged as a note shift.  The condition on the two reported frequencies is exact; rounding does not blur it. -/
theorem C25_jump_binary32 (d : Pitch F32) (s : F32) (d' : Pitch F32) (r : Bool) (h : d.step s = .ok (d', r)) (hc' : d'.current.frequency.val ≠ 0)
    (hj : d.current.frequency.val / 32 ≤ |d.current.frequency.val - d'.current.frequency.val|)
    (hne : d'.current.frequency.val ≠ d.current.frequency.val) :
    fl32 (95 / 100) ≤ d'.pd.fundamental.periodicity.val ∧ d'.current.frequency.val = estimate32 d' ∧
      d'.current.periodicity.val = d'.pd.fundamental.periodicity.val ∧ d'.framesAfterShift = 0 ∧ r = true := by
  have hcase := step_cases d d' s r h
  have hne0 := hne
  have hz : (PitchInfo.zero : PitchInfo F32).frequency.val = 0 := g32_zero
  have hon : ∀ p : F32, le (Pitch.onsetPeriodicity : F32) p = true → fl32 (95 / 100) ≤ p.val := fun p hp => (g32_le _ _).1 hp
  unfold StepCase at hcase
  generalize hc0 : (if d'.pd.zc.isReset = true then (PitchInfo.zero : PitchInfo F32) else d.current) = c0 at hcase
  have hkeep : d'.current = c0 → False := by
    intro hh
    rw [← hc0] at hh
    split at hh
    · rw [hh] at hc'; exact hc' hz
    · rw [hh] at hne; exact hne rfl
  simp only [] at hcase
  rcases hcase with ⟨-, e, -⟩ | ⟨-, -, e, -⟩ | ⟨-, -, hr, h⟩
  · exact (hkeep e).elim
  · rw [e] at hc'; exact absurd hz hc'
  · rcases h with ⟨-, hp, -, e, hn⟩ | ⟨-, -, e⟩ | ⟨-, -, e⟩ | ⟨hz0, -, h⟩
    · rw [e]; exact ⟨hon _ hp, estimate32_eq d', rfl, hn, hr⟩
    · exact (hkeep e).elim
    · exact (hkeep e).elim
    · have e0 : c0 = d.current := by
        rw [← hc0]; rw [← hc0] at hz0
        split
        · rename_i hh
          rw [if_pos hh, g32_eq', g32_zero] at hz0
          exact absurd hz hz0
        · rfl
      rw [e0] at h
      rcases h with ⟨hn, e⟩ | ⟨-, ⟨m, g, -, -, hn, e⟩ | ⟨hp, e, hn⟩ | ⟨-, -, e⟩ | ⟨-, e⟩⟩
      · rw [g32_near] at hn; rw [e] at hj; exact absurd hn (near_exact hj)
      · rw [g32_near] at hn; rw [e] at hj; exact absurd hn (near_exact hj)
      · rw [e]; exact ⟨hon _ hp, estimate32_eq d', rfl, hn, hr⟩
      · rw [e] at hc'; exact absurd hz hc'
      · rw [e] at hne; exact absurd rfl hne

/-- **C25** (single precision) A reported pitch is dropped (set to zero) only when the edge detector is reset, or the window is flagged as lacking two loud pulses in
both halves — never because of low periodicity, and never by underflow. -/
theorem C25_drop_binary32 (lowest highest hyst : F32) (sps : Nat) (d : Pitch F32) (hd : PitchReach lowest highest sps hyst d)
    (s : F32) (d' : Pitch F32) (r : Bool) (h : d.step s = .ok (d', r)) (hc : d.current.frequency.val ≠ 0)
    (hc' : d'.current.frequency.val = 0) :
    d'.pd.zc.isReset = true ∨ (d'.pd.zc.ready = true ∧ d'.pd.fundamental.periodicity.val = -1 ∧ r = false) := by
  have hcase := step_cases d d' s r h
  have hcpos : 0 < d.current.frequency.val := lt_of_le_of_ne (pitchReach32 hd).2.1.1 (Ne.symm hc)
  by_cases hres : d'.pd.zc.isReset = true
  · exact Or.inl hres
  right
  unfold StepCase at hcase
  rw [if_neg hres] at hcase
  simp only [] at hcase
  have hpos : lt (lit 0) d'.calculateFrequency = true → 0 < d'.calculateFrequency.val := by
    intro h; rw [g32_lt, g32_zero] at h; exact h
  rcases hcase with ⟨-, e, -⟩ | ⟨h1, h2, -, h3⟩ | ⟨-, -, -, h⟩
  · rw [e] at hc'; exact absurd hc' hc
  · rw [g32_eq, g32_m1] at h2; exact ⟨h1, h2, h3⟩
  · exfalso
    rcases h with ⟨-, -, hf, e, -⟩ | ⟨-, -, e⟩ | ⟨-, -, e⟩ | ⟨-, hf, h⟩
    · rw [e] at hc'; exact absurd hc' (hpos hf).ne'
    · rw [e] at hc'; exact absurd hc' hc
    · rw [e] at hc'; exact absurd hc' hc
    · rcases h with ⟨-, e⟩ | ⟨-, ⟨m, g, -, -, hn, e⟩ | ⟨-, e, -⟩ | ⟨h1, h2, -⟩ | ⟨-, e⟩⟩
      · rw [e] at hc'; exact absurd hc' (hpos hf).ne'
      · rw [g32_near] at hn
        rw [e] at hc'
        simp only at hc'
        refine near_exact (c := d.current.frequency.val) (g := g.val) ?_ hn
        rw [hc', sub_zero, abs_of_pos hcpos]
        linarith
      · rw [e] at hc'; exact absurd hc' (hpos hf).ne'
      · rw [g32_lt] at h1 h2; exact absurd h1 (not_lt.2 h2.le)
      · rw [e] at hc'; exact absurd hc' hc

end Verif
