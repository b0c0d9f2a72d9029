import Verif.Proof.FastExp
import Mathlib.Data.Rat.Floor
import Mathlib.Algebra.Order.Archimedean.Basic
import Mathlib.Tactic.FieldSimp
/-!
# Properties of the ADSR `envelope`
-/
namespace Verif
open Rounding Env

/-! ## The smoothing coefficient of a time constant -/

/-- **C45** (rounding included): a time constant of at least 1.255 samples gives a coefficient in `(0, 1)`,
whatever the sampling rate and the duration.  (`C45_short_violation`: it fails below 1.252 samples.) -/
theorem C45_coefficient_partial (sps : Nat) (d : ℚ) (h : 1255 / 1000 ≤ sps * d) :
    0 < coef fl32 fl64 sps d ∧ coef fl32 fl64 sps d < 1 := by
  have := coef_bounds (fl := fl32) (fd := fl64) fl32_lawful fl64_lawful h
  exact ⟨lt_of_lt_of_le (by norm_num) this.1, lt_of_le_of_lt this.2 (by norm_num)⟩

/-- The hypothesis is met by 1 ms at 44.1 kHz. -/
example : (1255 / 1000 : ℚ) ≤ (44100 : Nat) * (1 / 1000) := by norm_num

/-- **C45 fails** for every time constant between `10^-12` and 1.252 samples: the coefficient is negative. -/
theorem C45_short_violation (sps : Nat) (d : ℚ) (h0 : 1 / 10 ^ 12 ≤ sps * d) (h : sps * d ≤ 1252 / 1000) :
    coef fl32 fl64 sps d < 0 :=
  lt_of_le_of_lt (coef_neg fl32_lawful fl64_lawful h0 h) (by norm_num)

/-- 20 µs at 44.1 kHz. -/
example : (1 / 10 ^ 12 : ℚ) ≤ (44100 : Nat) * (20 / 10 ^ 6) ∧ ((44100 : Nat) : ℚ) * (20 / 10 ^ 6) ≤ 1252 / 1000 := by
  norm_num

/-- The rounded evaluation of `fast_exp3` when every intermediate result is a float. -/
theorem fastExp3_exact (L : Lawful 24 (-149) fl) {x : ℚ} (h1 : Rep 24 (-149) (3 + x))
    (h2 : Rep 24 (-149) (x * (3 + x))) (h3 : Rep 24 (-149) (6 + x * (3 + x)))
    (h4 : Rep 24 (-149) (x * (6 + x * (3 + x)))) (h5 : Rep 24 (-149) (6 + x * (6 + x * (3 + x)))) :
    fastExp3 fl x = fl ((6 + x * (6 + x * (3 + x))) * fl (16666666 / 10 ^ 8)) := by
  unfold fastExp3
  rw [L.fix _ h1, L.fix _ h2, L.fix _ h3, L.fix _ h4, L.fix _ h5]

/-- **C45 fails** for a time constant of half a sample: the "coefficient" is below -5.
(E.g. an attack of 10 µs at 50 kHz.) -/
theorem C45_half_sample_violation (d : ℚ) (sps : Nat) (h : sps * d = 1 / 2) :
    coef fl32 fl64 sps d < -5 := by
  have L := fl32_lawful
  have D := fl64_lawful
  unfold coef
  rw [h, D.fix (1 / 2) ⟨1, -1, by norm_num, by norm_num, by norm_num⟩,
    D.fix (-2 / (1 / 2)) ⟨-4, 0, by norm_num, by norm_num, by norm_num⟩,
    L.fix (-2 / (1 / 2)) ⟨-4, 0, by norm_num, by norm_num, by norm_num⟩,
    fastExp3_exact L ⟨-1, 0, by norm_num, by norm_num, by norm_num⟩ ⟨4, 0, by norm_num, by norm_num, by norm_num⟩
      ⟨10, 0, by norm_num, by norm_num, by norm_num⟩ ⟨-40, 0, by norm_num, by norm_num, by norm_num⟩
      ⟨-34, 0, by norm_num, by norm_num, by norm_num⟩]
  have hs : (1 : ℚ) / 6 - 1 / 100 ≤ fl32 (16666666 / 10 ^ 8) := by
    have h2 : |fl32 (16666666 / 10 ^ 8) - 16666666 / 10 ^ 8| ≤ 1 / 2 ^ 21 := err_abs L (by norm_num [abs_le])
    rw [abs_le] at h2
    have := h2.1
    norm_num at this ⊢
    linarith
  have : fl32 ((6 + -2 / (1 / 2) * (6 + -2 / (1 / 2) * (3 + -2 / (1 / 2)))) * fl32 (16666666 / 10 ^ 8)) ≤ -51 / 10 + 1/16 := by
    refine le_trans (L.le_of_rep (r := -5 - 1/16) ⟨-81, -4, by norm_num, by norm_num, by norm_num⟩ ?_) (by norm_num)
    norm_num at hs ⊢
    linarith
  linarith

example : ((50000 : Nat) : ℚ) * (1 / 100000) = 1 / 2 := by norm_num

/-! ## C42: the output stays between 0 and the largest trigger level -/

/-- The arguments for which the envelope is meant to be used: floats, levels between 0 and `M`, time constants
of at least 1.255 samples, sustain level an amplitude in `[0, 1]`. -/
def ValidOp (M : ℚ) : Op → Prop
  | .trigger l _ => Rep 24 (-149) l ∧ l ≤ M
  | .attackRate d sps | .decayRate d sps | .sustainRate d sps | .releaseRate d sps => 1255 / 1000 ≤ sps * d
  | .sustainLevel l => 0 ≤ l ∧ l ≤ 1
  | .releaseRateF r => Rep 24 (-149) r ∧ 0 ≤ r
  | .noteOffLevel l => Rep 24 (-149) l ∧ 0 ≤ l
  | _ => True

/-- A configuration for which the envelope is meant to be used. -/
def ValidConfig (c : Config) (sps : Nat) : Prop :=
  1255 / 1000 ≤ sps * c.attackRate ∧ 1255 / 1000 ≤ sps * c.decayRate ∧ 1255 / 1000 ≤ sps * c.sustainRate ∧
  1255 / 1000 ≤ sps * c.releaseRate ∧ 0 ≤ c.sustainLevel ∧ c.sustainLevel ≤ 1

namespace Env
/-- A level: a float between 0 and `M`. -/
def IsLevel (M x : ℚ) : Prop := Rep 24 (-149) x ∧ 0 ≤ x ∧ x ≤ M
/-- A rate: a float in `[0, 1)`. -/
def IsRate (x : ℚ) : Prop := Rep 24 (-149) x ∧ 0 ≤ x ∧ x < 1

/-- The invariant. -/
structure Inv (M : ℚ) (e : Envelope) : Prop where
  y : IsLevel M e.y
  level : ∀ l, e.level = some l → IsLevel M l
  legato : ∀ l, e.legatoLevel = some l → IsLevel M l
  start : ∀ l, e.startSustainLevel = some l → IsLevel M l
  off : IsLevel M e.noteOffLevel
  sl : 0 ≤ e.sustainLevel ∧ e.sustainLevel ≤ 1
  attack : IsRate e.attackRate
  decay : IsRate e.decayRate
  sustain : IsRate e.sustainRate
  release : IsRate e.releaseRate

variable {fl fd : ℚ → ℚ}

theorem coef_rate (L : Lawful 24 (-149) fl) (D : Lawful 53 (-1074) fd) {sps : Nat} {d : ℚ}
    (h : 1255 / 1000 ≤ sps * d) : IsRate (coef fl fd sps d) := by
  have := coef_bounds L D h
  refine ⟨?_, by linarith, lt_of_le_of_lt this.2 (by norm_num)⟩
  unfold coef fastExp3
  exact L.rep _

theorem approach_level (L : Lawful 24 (-149) fl) {M t r y : ℚ} (ht : IsLevel M t) (hr : IsRate r)
    (hy : IsLevel M y) : IsLevel M (approach fl t r y) := by
  refine ⟨L.rep _, L.approach_nonneg ht.1 ht.2.1 hr.2.1 hr.2.2.le hy.2.1, ?_⟩
  rcases le_total t y with h | h
  · exact le_trans (L.approach_le (by norm_num) ht.1 hr.1 hy.1 hr.2.1 hr.2.2 h) hy.2.2
  · exact le_trans (L.approach_le_target ht.1 hr.2.1 h) ht.2.2

theorem get_ok {x : Option ℚ} {v : ℚ} (h : get x = .ok v) : x = some v := by
  cases x with
  | none => cases h
  | some w => cases h; rfl

theorem tick_inv (L : Lawful 24 (-149) fl) (M : ℚ) {e : Envelope} (h : Inv M e)
    {r : Envelope × ℚ} (hr : tick fl fd e = .ok r) : Inv M r.1 ∧ 0 ≤ r.2 ∧ r.2 ≤ M := by
  have hM : 0 ≤ M := le_trans h.y.2.1 h.y.2.2
  unfold tick at hr
  cases hs : e.state <;> rw [hs] at hr <;> simp only at hr
  · cases hr; exact ⟨h, le_rfl, hM⟩
  · -- attack
    unfold updateAttack at hr
    cases hl : get e.level with
    | error b => rw [hl] at hr; cases hr
    | ok l =>
      have hl' := h.level l (get_ok hl)
      rw [hl] at hr
      simp only [bind, Except.bind, pure, Except.pure] at hr
      have ht : IsRate e.attackRate := h.attack
      have y0 : 0 ≤ approach fl (fl (16 / 10)) e.attackRate e.y :=
        L.approach_nonneg (L.rep _) (L.nonneg (by norm_num)) ht.2.1 ht.2.2.le h.y.2.1
      by_cases hc : approach fl (fl (16 / 10)) e.attackRate e.y > l
      · rw [if_pos hc] at hr
        cases hr
        exact ⟨{ h with y := hl' }, hl'.2⟩
      · rw [if_neg hc] at hr
        cases hr
        have : IsLevel M (approach fl (fl (16 / 10)) e.attackRate e.y) :=
          ⟨L.rep _, y0, le_trans (not_lt.1 hc) hl'.2.2⟩
        exact ⟨{ h with y := this }, this.2⟩
  · -- legato
    unfold updateLegato at hr
    cases hl : get e.legatoLevel with
    | error b => rw [hl] at hr; cases hr
    | ok l =>
      have hl' := h.legato l (get_ok hl)
      rw [hl] at hr
      simp only [bind, Except.bind, pure, Except.pure] at hr
      have hy := approach_level L hl' h.attack h.y
      split_ifs at hr
      · cases hr; exact ⟨{ h with y := hl' }, hl'.2⟩
      · cases hr; exact ⟨{ h with y := hy }, hy.2⟩
  · -- decay
    unfold updateDecay at hr
    cases hl : get e.level with
    | error b => rw [hl] at hr; cases hr
    | ok l =>
      have hl' := h.level l (get_ok hl)
      rw [hl] at hr
      simp only [bind, Except.bind, pure, Except.pure] at hr
      have hv : IsLevel M (fl (l * e.sustainLevel)) := by
        refine ⟨L.rep _, L.nonneg (mul_nonneg hl'.2.1 h.sl.1), le_trans (L.le_of_rep hl'.1 ?_) hl'.2.2⟩
        nlinarith [hl'.2.1, h.sl.1, h.sl.2]
      have hy := approach_level L hv h.decay h.y
      split_ifs at hr
      · cases hr
        refine ⟨{ h with y := hv, start := ?_ }, hv.2⟩
        intro l hl; cases hl; exact hv
      · cases hr; exact ⟨{ h with y := hy }, hy.2⟩
  · -- sustain
    cases hr
    have hy : IsLevel M (fl (e.y * e.sustainRate)) := by
      refine ⟨L.rep _, L.nonneg (mul_nonneg h.y.2.1 h.sustain.2.1), le_trans (L.le_of_rep h.y.1 ?_) h.y.2.2⟩
      nlinarith [h.y.2.1, h.sustain.2.1, h.sustain.2.2]
    exact ⟨{ h with y := hy }, hy.2⟩
  all_goals
    cases hr
    have hy := approach_level L h.off h.release h.y
    unfold updateRelease
    simp only
    split_ifs
    all_goals first
      | exact ⟨{ h with y := h.off }, h.off.2⟩
      | exact ⟨{ h with y := hy }, hy.2⟩

theorem step_inv (L : Lawful 24 (-149) fl) (D : Lawful 53 (-1074) fd) (M : ℚ) {e : Envelope} (h : Inv M e)
    {op : Op} (hop : ValidOp M op) {e' : Envelope} (hr : step fl fd e op = .ok e') : Inv M e' := by
  cases op with
  | tick =>
    unfold step at hr
    cases ht : tick fl fd e with
    | error b => rw [ht] at hr; cases hr
    | ok r => rw [ht] at hr; cases hr; exact (tick_inv L M h ht).1
  | trigger l a =>
    cases hr
    unfold trigger
    split_ifs with hc
    · refine { h with level := ?_ }
      intro l' hl'; cases hl'
      exact ⟨hop.1, le_trans h.y.2.1 hc.le, hop.2⟩
    · exact h
  | legato =>
    simp only [step] at hr
    unfold legato at hr
    split_ifs at hr with hc
    · cases hs : get e.startSustainLevel with
      | error b => rw [hs] at hr; cases hr
      | ok s =>
        rw [hs] at hr
        simp only [bind, Except.bind, pure, Except.pure] at hr
        split_ifs at hr
        · cases hr
          refine { h with legato := ?_ }
          intro l hl; cases hl; exact h.start s (get_ok hs)
        · cases hr; exact h
    · cases hr; exact h
  | decay => cases hr; exact { h with }
  | release => cases hr; unfold release; split_ifs; exact { h with }; exact h
  | attackRate d sps => cases hr; exact { h with attack := coef_rate L D hop }
  | decayRate d sps => cases hr; exact { h with decay := coef_rate L D hop }
  | sustainLevel l => cases hr; exact { h with sl := hop }
  | sustainRate d sps => cases hr; exact { h with sustain := coef_rate L D hop }
  | releaseRate d sps => cases hr; exact { h with release := coef_rate L D hop }
  | releaseRateF r =>
    cases hr; unfold setReleaseRateF
    split_ifs with hc
    · exact { h with release := ⟨hop.1, hop.2, hc⟩ }
    · exact h
  | noteOffLevel l =>
    cases hr; unfold setNoteOffLevel
    split_ifs with hc
    · exact { h with off := ⟨hop.1, hop.2, le_trans hc.le h.y.2.2⟩ }
    · exact h

theorem run_inv (L : Lawful 24 (-149) fl) (D : Lawful 53 (-1074) fd) (M : ℚ) (ops : List Op) {e : Envelope}
    (h : Inv M e) (hops : ∀ op ∈ ops, ValidOp M op) {e' : Envelope} (hr : run fl fd e ops = .ok e') : Inv M e' := by
  induction ops generalizing e with
  | nil => cases hr; exact h
  | cons op ops ih =>
    unfold run at hr
    cases hs : step fl fd e op with
    | error b => rw [hs] at hr; cases hr
    | ok e1 =>
      rw [hs] at hr
      exact ih (step_inv L D M h (hops op (by simp)) hs) (fun o ho => hops o (by simp [ho])) hr

theorem mk_inv (L : Lawful 24 (-149) fl) (D : Lawful 53 (-1074) fd) {M : ℚ} (hM : 0 ≤ M) {c : Config} {sps : Nat}
    (hc : ValidConfig c sps) : Inv M (mk' fl fd c sps) := by
  have z : IsLevel M 0 := ⟨⟨0, 0, by norm_num, by norm_num, by norm_num⟩, le_rfl, hM⟩
  exact ⟨z, (fun l h => by cases h), (fun l h => by cases h), (fun l h => by cases h), z, hc.2.2.2.2,
    coef_rate L D hc.1, coef_rate L D hc.2.1, coef_rate L D hc.2.2.1, coef_rate L D hc.2.2.2.1⟩

end Env

/-- **C42** (IEEE rounding included): after any history of calls with valid arguments whose trigger levels are at
most `M`, the stored level and the next output are between 0 and `M`. -/
theorem C42_output_bounds (c : Config) (sps : Nat) (hc : ValidConfig c sps) (M : ℚ) (hM : 0 ≤ M)
    (ops : List Op) (hops : ∀ op ∈ ops, ValidOp M op) (e : Envelope)
    (h : run fl32 fl64 (mk' fl32 fl64 c sps) ops = .ok e) :
    0 ≤ e.y ∧ e.y ≤ M ∧
    ∀ e' out, tick fl32 fl64 e = .ok (e', out) → 0 ≤ out ∧ out ≤ M := by
  have hi := run_inv fl32_lawful fl64_lawful M ops (mk_inv fl32_lawful fl64_lawful hM hc) hops h
  exact ⟨hi.y.2.1, hi.y.2.2, fun e' out ht => (tick_inv fl32_lawful M hi ht).2⟩

/-- The defaults of `envelope::config` at 44.1 kHz are valid (the sustain level -6 dB is about 0.5). -/
example : ValidConfig ⟨30 / 1000, 70 / 1000, 1 / 2, 50, 1 / 10⟩ 44100 := by
  unfold ValidConfig; norm_num

/-! ## C43: state transitions -/

/-- The state machine of the documentation: which state changes each call may make. -/
inductive Allowed : State → Op → State → Prop
  /-- a call that is not listed below leaves the state alone (so does any call that chooses to) -/
  | stay (s op) (h : op = .release → s = .noteOff ∨ s = .release) : Allowed s op s
  | triggered (s l a) : Allowed s (.trigger l a) .attack
  | legato : Allowed .sustain .legato .legato
  | release (s) (h : s ≠ .noteOff) : Allowed s .release .release
  | attackDecay : Allowed .attack .tick .decay
  | attackSustain : Allowed .attack .tick .sustain
  | legatoSustain : Allowed .legato .tick .sustain
  | decaySustain : Allowed .decay .tick .sustain
  | releaseEnd : Allowed .release .tick .noteOff
  | releaseNote : Allowed .release .tick .noteRelease
  | noteReleaseEnd : Allowed .noteRelease .tick .noteOff

/-- **C43**: only these state transitions happen, whatever the arguments and whatever the arithmetic does. -/
theorem C43_transitions (fl fd : ℚ → ℚ) (e e' : Envelope) (op : Op) (h : step fl fd e op = .ok e') :
    Allowed e.state op e'.state := by
  have stay : ∀ s op, op ≠ .release → Allowed s op s := fun s op h => .stay s op (fun he => absurd he h)
  cases op with
  | tick =>
    unfold step tick at h
    cases hs : e.state <;> rw [hs] at h <;> simp only [bind, Except.bind, pure, Except.pure] at h
    · cases h; rw [hs]; exact stay _ _ (by simp)
    · unfold updateAttack at h
      cases hl : get e.level with
      | error b => rw [hl] at h; cases h
      | ok l =>
        rw [hl] at h; simp only [bind, Except.bind, pure, Except.pure] at h
        split_ifs at h <;> cases h <;>
          first | exact .attackDecay | exact .attackSustain | (simp only [hs]; exact stay _ _ (by simp))
    · unfold updateLegato at h
      cases hl : get e.legatoLevel with
      | error b => rw [hl] at h; cases h
      | ok l =>
        rw [hl] at h; simp only [bind, Except.bind, pure, Except.pure] at h
        split_ifs at h <;> cases h <;>
          first | exact .legatoSustain | (simp only [hs]; exact stay _ _ (by simp))
    · unfold updateDecay at h
      cases hl : get e.level with
      | error b => rw [hl] at h; cases h
      | ok l =>
        rw [hl] at h; simp only [bind, Except.bind, pure, Except.pure] at h
        split_ifs at h <;> cases h <;>
          first | exact .decaySustain | (simp only [hs]; exact stay _ _ (by simp))
    · cases h; simp only [updateSustain, hs]; exact stay _ _ (by simp)
    · cases h; unfold updateRelease; simp only
      split_ifs <;> first | exact .releaseNote | exact .releaseEnd | (simp only [hs]; exact stay _ _ (by simp))
    · cases h; unfold updateRelease; simp only
      split_ifs <;> first | exact .noteReleaseEnd | exact stay .noteRelease .tick (by simp) | (simp only [hs]; exact stay _ _ (by simp))
  | trigger l a =>
    cases h; unfold trigger
    split_ifs; exact .triggered _ l a; exact stay _ _ (by simp)
  | legato =>
    simp only [step] at h
    unfold legato at h
    split_ifs at h with hc
    · cases hs : get e.startSustainLevel with
      | error b => rw [hs] at h; cases h
      | ok s =>
        rw [hs] at h
        simp only [bind, Except.bind, pure, Except.pure] at h
        split_ifs at h
        · cases h; rw [hc]; exact .legato
        · cases h; exact stay _ _ (by simp)
    · cases h; exact stay _ _ (by simp)
  | release =>
    cases h; unfold release
    split_ifs with hc
    · exact .release _ hc
    · push Not at hc; exact .stay _ _ (fun _ => .inl hc)
  | releaseRateF r => cases h; unfold setReleaseRateF; split_ifs <;> exact stay _ _ (by simp)
  | noteOffLevel r => cases h; unfold setNoteOffLevel; split_ifs <;> exact stay _ _ (by simp)
  | _ => cases h; exact stay _ _ (by simp)

/-- Only `operator()` moves the level; every other call leaves `current()` unchanged. -/
theorem C43_only_tick_moves (fl fd : ℚ → ℚ) (e e' : Envelope) (op : Op) (hop : op ≠ .tick)
    (h : step fl fd e op = .ok e') : e'.y = e.y := by
  cases op with
  | tick => exact absurd rfl hop
  | legato =>
    simp only [step] at h
    unfold legato at h
    split_ifs at h with hc
    · cases hs : get e.startSustainLevel with
      | error b => rw [hs] at h; cases h
      | ok s =>
        rw [hs] at h
        simp only [bind, Except.bind, pure, Except.pure] at h
        split_ifs at h <;> cases h <;> rfl
    · cases h; rfl
  | trigger l a => cases h; unfold trigger; split_ifs <;> rfl
  | release => cases h; unfold release; split_ifs <;> rfl
  | releaseRateF r => cases h; unfold setReleaseRateF; split_ifs <;> rfl
  | noteOffLevel r => cases h; unfold setNoteOffLevel; split_ifs <;> rfl
  | _ => cases h; rfl

/-- A trigger starts the attack exactly when the current level is below the requested one; the next attack then
aims at that level.  A trigger at or below the current level is ignored. -/
theorem C43_trigger (fl fd : ℚ → ℚ) (e : Envelope) (l : ℚ) (a : Int) :
    (e.y < l → ∃ e', step fl fd e (.trigger l a) = .ok e' ∧ e'.state = .attack ∧ e'.level = some l) ∧
    (l ≤ e.y → step fl fd e (.trigger l a) = .ok e) := by
  constructor
  · intro h; exact ⟨_, rfl, by simp [trigger, h], by simp [trigger, h]⟩
  · intro h; simp [step, trigger, not_lt.2 h]

/-- `release()` of a sounding note always enters the release state. -/
theorem C43_release (fl fd : ℚ → ℚ) (e : Envelope) (h : e.state ≠ .noteOff) :
    ∃ e', step fl fd e .release = .ok e' ∧ e'.state = .release :=
  ⟨_, rfl, by simp [release, h]⟩

/-- While off, the output is 0 and stays so until a trigger. -/
theorem C43_off_is_silent (fl fd : ℚ → ℚ) (e : Envelope) (h : e.state = .noteOff) :
    tick fl fd e = .ok (e, 0) := by
  unfold tick; rw [h]

/-- `legato()` in the sustain state after a trigger that skips the decay stage reads an uninitialised member. -/
theorem C43_legato_violation (fl fd : ℚ → ℚ) (e : Envelope) (h : e.state = .sustain)
    (h' : e.startSustainLevel = none) : step fl fd e .legato = .error .uninit := by
  simp [step, legato, h, h', Env.get, bind, Except.bind]

/-- … and such a state is reached by ordinary use: `trigger(1/10, -1)` followed by one sample, with an attack of 1.5
samples (in exact arithmetic), leads to sustain with the member unset. -/
theorem C43_legato_violation_reachable : ∃ e : Envelope,
    run id id (mk' id id ⟨1 / 2, 1, 1, 1, 1⟩ 3) [.trigger (1 / 10) (-1), .tick] = .ok e ∧
    step id id e .legato = .error .uninit := by
  refine ⟨{ mk' id id ⟨1 / 2, 1, 1, 1, 1⟩ 3 with
    y := 1 / 10, level := some (1 / 10), autoDecay := -1, state := .sustain }, ?_, C43_legato_violation _ _ _ rfl rfl⟩
  have h : (1 / 10 : ℚ) < 16 / 10 + coef id id 3 (1 / 2) * -(16 / 10) := by
    norm_num [coef, fastExp3]
  simp [run, step, trigger, mk', tick, updateAttack, Env.get, approach, bind, Except.bind, pure, Except.pure]
  norm_num at h ⊢
  have h' : (10 : ℚ)⁻¹ + coef id id 3 2⁻¹ * (8 / 5) < 8 / 5 := by
    have h2 : (2 : ℚ)⁻¹ = 1 / 2 := by norm_num
    rw [h2]; norm_num; linarith
  simp [h']

namespace Env
/-- Everything the code is going to read has been written. -/
def Init (e : Envelope) : Prop :=
  ((e.state = .attack ∨ e.state = .decay) → e.level.isSome) ∧
  (e.state = .legato → e.legatoLevel.isSome ∧ e.startSustainLevel.isSome) ∧
  (e.state = .sustain → e.startSustainLevel.isSome) ∧
  (e.state = .attack → e.autoDecay ≠ -1)

theorem get_some {x : Option ℚ} (h : x.isSome) : ∃ v, get x = .ok v := by
  cases x with
  | none => cases h
  | some v => exact ⟨v, rfl⟩

theorem step_init (fl fd : ℚ → ℚ) {e : Envelope} (h : Init e) {op : Op}
    (hop : ∀ l, op ≠ .trigger l (-1)) : ∃ e', step fl fd e op = .ok e' ∧ Init e' := by
  obtain ⟨h1, h2, h3, h4⟩ := h
  cases op with
  | tick =>
    unfold step tick
    cases hs : e.state <;> simp only [bind, Except.bind, pure, Except.pure]
    · exact ⟨_, rfl, ⟨h1, h2, h3, h4⟩⟩
    · obtain ⟨l, hl⟩ := get_some (h1 (.inl hs))
      unfold updateAttack
      rw [hl]
      simp only [bind, Except.bind, pure, Except.pure]
      have h4' := h4 hs
      split_ifs
      all_goals refine ⟨_, rfl, ?_⟩
      all_goals simp [Init, hs, h1 (.inl hs), h4']
    · obtain ⟨l, hl⟩ := get_some (h2 hs).1
      unfold updateLegato
      rw [hl]
      simp only [bind, Except.bind, pure, Except.pure]
      split_ifs
      all_goals refine ⟨_, rfl, ?_⟩
      all_goals simp [Init, hs, (h2 hs).2, (h2 hs).1]
    · obtain ⟨l, hl⟩ := get_some (h1 (.inr hs))
      unfold updateDecay
      rw [hl]
      simp only [bind, Except.bind, pure, Except.pure]
      split_ifs
      all_goals refine ⟨_, rfl, ?_⟩
      all_goals simp [Init, hs, h1]
    · exact ⟨_, rfl, by simp [Init, updateSustain, hs, h3]⟩
    all_goals
      refine ⟨_, rfl, ?_⟩
      unfold updateRelease
      simp only
      split_ifs <;> simp [Init, hs]
  | trigger l a =>
    refine ⟨_, rfl, ?_⟩
    unfold trigger
    split_ifs
    · refine ⟨by simp, by simp, by simp, ?_⟩
      intro _ ha
      exact hop l (by simp only at ha; rw [ha])
    · exact ⟨h1, h2, h3, h4⟩
  | legato =>
    simp only [step]
    unfold legato
    split_ifs with hc
    · obtain ⟨s, hs⟩ := get_some (h3 hc)
      have := get_ok hs
      rw [hs]
      simp only [bind, Except.bind, pure, Except.pure]
      split_ifs
      · exact ⟨_, rfl, by simp [Init, this]⟩
      · exact ⟨_, rfl, ⟨h1, h2, h3, h4⟩⟩
    · exact ⟨_, rfl, ⟨h1, h2, h3, h4⟩⟩
  | decay => exact ⟨_, rfl, h1, h2, h3, by simp [decay]⟩
  | release =>
    refine ⟨_, rfl, ?_⟩
    unfold release
    split_ifs
    · simp [Init]
    · exact ⟨h1, h2, h3, h4⟩
  | releaseRateF r => refine ⟨_, rfl, ?_⟩; unfold setReleaseRateF; split_ifs <;> exact ⟨h1, h2, h3, h4⟩
  | noteOffLevel r => refine ⟨_, rfl, ?_⟩; unfold setNoteOffLevel; split_ifs <;> exact ⟨h1, h2, h3, h4⟩
  | _ => exact ⟨_, rfl, h1, h2, h3, h4⟩
end Env

/-- **C43**: a history that never skips the decay stage (`auto_decay = -1`) never reads an uninitialised member. -/
theorem C43_no_uninitialised_read_partial (fl fd : ℚ → ℚ) (c : Config) (sps : Nat) (ops : List Op)
    (hops : ∀ op ∈ ops, ∀ l, op ≠ .trigger l (-1)) :
    ∃ e, run fl fd (mk' fl fd c sps) ops = .ok e := by
  have key : ∀ (ops : List Op) (e : Envelope), Init e → (∀ op ∈ ops, ∀ l, op ≠ .trigger l (-1)) →
      ∃ e', run fl fd e ops = .ok e' := by
    intro ops
    induction ops with
    | nil => intro e _ _; exact ⟨e, rfl⟩
    | cons op ops ih =>
      intro e he ho
      obtain ⟨e1, h1, h2⟩ := step_init fl fd he (ho op (by simp))
      unfold run
      rw [h1]
      exact ih e1 h2 (fun o hm => ho o (by simp [hm]))
  exact key ops _ (by simp [Init, mk']) hops

/-! ## C41: every stage finishes -/

/-- `n` calls of `operator()`. -/
def ticks (fl fd : ℚ → ℚ) : Nat → Envelope → C Envelope
  | 0, e => .ok e
  | n + 1, e => do let r ← tick fl fd e; ticks fl fd n r.1

namespace Env
theorem rep_int_mul {p : ℕ} {emin : ℤ} {y : ℚ} (h : Rep p emin y) : ∃ k : ℤ, y = k * (2 : ℚ) ^ emin := by
  obtain ⟨m, e, _, he, rfl⟩ := h
  obtain ⟨n, hn⟩ := Int.eq_ofNat_of_zero_le (by omega : 0 ≤ e - emin)
  refine ⟨m * 2 ^ n, ?_⟩
  rw [show e = n + emin by omega, zpow_add₀ (by norm_num), zpow_natCast]
  push_cast; ring

theorem ticks_off (fl fd : ℚ → ℚ) {e : Envelope} (h : e.state = .noteOff) (n : Nat) : ticks fl fd n e = .ok e := by
  induction n with
  | zero => rfl
  | succ n ih => unfold ticks; rw [C43_off_is_silent fl fd e h]; exact ih

theorem release_fin (L : Lawful 24 (-149) fl) (hh : (2 : ℚ) ^ (-125 : ℤ) ≤ hysteresis fl fd)
    (hrep : Rep 24 (-149) (hysteresis fl fd)) (k : Nat) :
    ∀ e : Envelope, e.state = .release → e.noteOffLevel = 0 → e.endNoteOffLevel = 0 → IsRate e.releaseRate →
    Rep 24 (-149) e.y → 0 ≤ e.y → e.y ≤ k * (2 : ℚ) ^ (-149 : ℤ) →
    ∃ N, 0 < N ∧ ∀ n, N ≤ n → ∃ e', ticks fl fd n e = .ok e' ∧ e'.state = .noteOff ∧ e'.y = 0 := by
  have hpos : 0 < hysteresis fl fd := lt_of_lt_of_le (two_zpow_pos _) hh
  induction k with
  | zero =>
    intro e hs hn he hr hy y0 hk
    have y00 : e.y = 0 := le_antisymm (by simpa using hk) y0
    refine ⟨1, by norm_num, ?_⟩
    intro n hn1
    obtain ⟨n, rfl⟩ : ∃ m, n = m + 1 := ⟨n - 1, by omega⟩
    have hup : updateRelease fl fd e = { e with y := 0, state := .noteOff } := by
      unfold updateRelease approach
      simp only [hn, he, y00, sub_zero, L.zero, mul_zero, zero_add, add_zero, L.fix _ hrep, hpos, if_true, lt_irrefl,
        if_false]
    unfold ticks tick
    rw [hs]
    simp only [bind, Except.bind]
    rw [hup]
    exact ⟨_, ticks_off fl fd rfl n, rfl, rfl⟩
  | succ k ih =>
    intro e hs hn he hr hy y0 hk
    by_cases hc : approach fl 0 e.releaseRate e.y < hysteresis fl fd
    · have hup : updateRelease fl fd e = { e with y := 0, state := .noteOff } := by
        unfold updateRelease
        simp only [hn, he, zero_add, L.fix _ hrep, hc, hpos, if_true, lt_irrefl, if_false]
      refine ⟨1, by norm_num, ?_⟩
      intro n hn1
      obtain ⟨n, rfl⟩ : ∃ m, n = m + 1 := ⟨n - 1, by omega⟩
      unfold ticks tick
      rw [hs]
      simp only [bind, Except.bind]
      rw [hup]
      exact ⟨_, ticks_off fl fd rfl n, rfl, rfl⟩
    · have hup : updateRelease fl fd e = { e with y := approach fl 0 e.releaseRate e.y } := by
        unfold updateRelease
        simp only [hn, zero_add, L.fix _ hrep, hc, if_false]
      have heq : approach fl 0 e.releaseRate e.y = fl (e.releaseRate * e.y) := by
        unfold approach
        rw [sub_zero, L.fix _ hy, zero_add, L.idem]
      have hge : hysteresis fl fd ≤ e.y := by
        refine le_trans (not_lt.1 hc) ?_
        rw [heq]
        exact L.le_of_rep hy (by nlinarith [hr.2.1, hr.2.2])
      have hlt : approach fl 0 e.releaseRate e.y < e.y := by
        rw [heq]
        exact L.mul_lt (by norm_num) hr.1 hr.2.2 hy (le_trans (le_trans (by norm_num) hh) hge)
      have hrep' : Rep 24 (-149) (approach fl 0 e.releaseRate e.y) := L.rep _
      have h0' : 0 ≤ approach fl 0 e.releaseRate e.y := le_trans hpos.le (not_lt.1 hc)
      have hk' : approach fl 0 e.releaseRate e.y ≤ k * (2 : ℚ) ^ (-149 : ℤ) := by
        obtain ⟨a, ha⟩ := rep_int_mul hrep'
        have pos := two_zpow_pos (-149)
        have hlt2 := lt_of_lt_of_le hlt hk
        rw [ha] at hlt2 ⊢
        have : (a : ℚ) < ((k + 1 : Nat) : ℚ) := lt_of_mul_lt_mul_right hlt2 pos.le
        have : a < ((k + 1 : Nat) : ℤ) := by exact_mod_cast this
        have : a ≤ (k : ℤ) := by push_cast at this; omega
        have : (a : ℚ) ≤ (k : ℚ) := by exact_mod_cast this
        exact mul_le_mul_of_nonneg_right this pos.le
      obtain ⟨N, hN0, hN⟩ := ih { e with y := approach fl 0 e.releaseRate e.y } hs hn he hr hrep' h0' hk'
      refine ⟨N + 1, by omega, ?_⟩
      intro n hn1
      obtain ⟨n, rfl⟩ : ∃ m, n = m + 1 := ⟨n - 1, by omega⟩
      obtain ⟨e', h1, h2⟩ := hN n (by omega)
      refine ⟨e', ?_, h2⟩
      unfold ticks tick
      rw [hs]
      simp only [bind, Except.bind]
      rw [hup]
      exact h1
end Env

theorem hysteresis_ge : (2 : ℚ) ^ (-125 : ℤ) ≤ hysteresis fl32 fl64 := by
  have h1 : (1 : ℚ) / 2 ^ 14 ≤ fl64 (1 / 10000) :=
    fl64_lawful.ge_of_rep ⟨1, -14, by norm_num, by norm_num, by norm_num⟩ (by norm_num)
  have h2 : (1 : ℚ) / 2 ^ 14 ≤ hysteresis fl32 fl64 :=
    fl32_lawful.ge_of_rep ⟨1, -14, by norm_num, by norm_num, by norm_num⟩ h1
  refine le_trans ?_ h2
  rw [show (1 : ℚ) / 2 ^ 14 = 2 ^ (-14 : ℤ) by norm_num]
  exact zpow_le_zpow_right₀ (by norm_num) (by norm_num)

/-- **C41** (IEEE rounding included): from any reachable state of a sounding envelope whose note-off level was never
set, after `release()` there is a number of samples after which the envelope is off, at level 0, and stays so. -/
theorem C41_release_finishes (c : Config) (sps : Nat) (hc : ValidConfig c sps) (M : ℚ) (hM : 0 ≤ M)
    (ops : List Op) (hops : ∀ op ∈ ops, ValidOp M op) (e : Envelope)
    (h : run fl32 fl64 (mk' fl32 fl64 c sps) ops = .ok e) (hs : e.state ≠ .noteOff)
    (hn : e.noteOffLevel = 0) (he : e.endNoteOffLevel = 0) :
    ∃ N, ∀ n, N ≤ n → ∃ e', ticks fl32 fl64 n (release e) = .ok e' ∧ e'.state = .noteOff ∧ e'.y = 0 := by
  have hi := run_inv fl32_lawful fl64_lawful M ops (mk_inv fl32_lawful fl64_lawful hM hc) hops h
  obtain ⟨k, hk⟩ := exists_nat_gt (e.y / (2 : ℚ) ^ (-149 : ℤ))
  have hk' : e.y ≤ k * (2 : ℚ) ^ (-149 : ℤ) := by
    rw [div_lt_iff₀ (two_zpow_pos _)] at hk; exact hk.le
  have hrel : release e = { e with state := .release } := by simp [release, hs]
  obtain ⟨N, _, hN⟩ := release_fin (fd := fl64) fl32_lawful hysteresis_ge (fl32_lawful.rep _) k (release e)
    (by rw [hrel]) (by rw [hrel]; exact hn) (by rw [hrel]; exact he) (by rw [hrel]; exact hi.release)
    (by rw [hrel]; exact hi.y.1) (by rw [hrel]; exact hi.y.2.1) (by rw [hrel]; exact hk')
  exact ⟨N, hN⟩

end Verif
