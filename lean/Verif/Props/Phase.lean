import Verif.Model.Phase
import Verif.Proof.Rounding
import Mathlib.Tactic.NormNum
import Mathlib.Data.Int.ModEq
/-!
# Phase arithmetic (C27–C30)
-/
namespace Verif
open Phase

/-- A sequence of `++` (`true`) and `--` (`false`) applied to a phase iterator. -/
def runSteps (i : Iter) (ops : List Bool) : Iter :=
  ops.foldl (fun i b => if b then i.inc else i.dec) i

theorem Iter.inc_toNat (i : Iter) : i.inc.phase.toNat = (i.phase.toNat + i.incr.toNat) % 2 ^ 32 := by
  simp [Iter.inc, BitVec.toNat_add]

/-- C27: after any sequence of increments and decrements the phase is the start plus (number of
increments − number of decrements) times the increment, modulo `2^32`, and the increment is unchanged. -/
theorem C27_phase_modular (i : Iter) (ops : List Bool) :
    (((runSteps i ops).phase.toNat : ℤ) =
      (i.phase.toNat + ((ops.count true : ℤ) - ops.count false) * i.incr.toNat) % 2 ^ 32)
    ∧ (runSteps i ops).incr = i.incr := by
  induction ops generalizing i with
  | nil =>
    have := i.phase.isLt
    simp only [runSteps, List.foldl_nil, List.count_nil, and_true]
    omega
  | cons b t ih =>
    cases b
    · have h := ih i.dec
      have e : runSteps i (false :: t) = runSteps i.dec t := by simp [runSteps]
      rw [e, h.1, h.2]
      refine ⟨?_, rfl⟩
      have hp : (i.dec.phase.toNat : ℤ) = ((i.phase.toNat : ℤ) - i.incr.toNat) % 2 ^ 32 := by
        have := i.phase.isLt
        have := i.incr.isLt
        simp only [Iter.dec, BitVec.toNat_sub]
        omega
      rw [hp]
      simp only [Iter.dec, List.count_cons_self, List.count_cons_of_ne (by decide : false ≠ true)]
      rw [Int.emod_add_emod]
      congr 1
      push_cast
      ring
    · have h := ih i.inc
      have e : runSteps i (true :: t) = runSteps i.inc t := by simp [runSteps]
      rw [e, h.1, h.2]
      refine ⟨?_, rfl⟩
      have hp : (i.inc.phase.toNat : ℤ) = ((i.phase.toNat : ℤ) + i.incr.toNat) % 2 ^ 32 := by
        rw [Iter.inc_toNat]; push_cast; rfl
      rw [hp]
      simp only [Iter.inc, List.count_cons_self, List.count_cons_of_ne (by decide : true ≠ false)]
      rw [Int.emod_add_emod]
      congr 1
      push_cast
      ring

example : (runSteps ⟨0xF0000000#32, 0x20000000#32⟩ [true, true, false, true]).phase = 0x30000000#32 := by
  decide

theorem iterate_inc_toNat (i : Iter) (n : ℕ) :
    (Iter.inc^[n] i).phase.toNat = (i.phase.toNat + n * i.incr.toNat) % 2 ^ 32
    ∧ (Iter.inc^[n] i).incr = i.incr := by
  induction n with
  | zero => have := i.phase.isLt; simp; omega
  | succ n ih =>
    rw [Function.iterate_succ_apply', Iter.inc_toNat, ih.1, ih.2]
    constructor
    · rw [Nat.mod_add_mod]; congr 1; ring
    · simpa [Iter.inc] using ih.2

/-- C27: stepping back undoes stepping forward, and vice versa; the postfix operators return the old
value and leave the same state as the prefix ones. -/
theorem C27_inverse (i : Iter) :
    i.inc.dec = i ∧ i.dec.inc = i ∧ i.postInc = (i, i.inc) ∧ i.postDec = (i, i.dec) := by
  cases i
  refine ⟨?_, ?_, rfl, rfl⟩
  · simp only [Iter.inc, Iter.dec, BitVec.add_sub_cancel]
  · simp only [Iter.inc, Iter.dec, BitVec.sub_add_cancel]

/-- The calls that move or retune an oscillator: `++`, `--` and assigning a new phase increment. -/
inductive StepOp where
  | inc
  | dec
  | retune (d : Rep)

/-- Running such a history on the code. -/
def runOps (i : Iter) : List StepOp → Iter
  | [] => i
  | .inc :: t => runOps i.inc t
  | .dec :: t => runOps i.dec t
  | .retune d :: t => runOps (i.assign d) t

/-- The distance travelled by a history, as a mathematical integer: every step counts the increment in force at that
moment. -/
def travelled (d : ℕ) : List StepOp → ℤ
  | [] => 0
  | .inc :: t => d + travelled d t
  | .dec :: t => -d + travelled d t
  | .retune d' :: t => travelled d'.toNat t

/-- C27: the phase after any history of steps and retunings is the initial phase plus the distance travelled, modulo one
turn: changing the frequency never makes the phase jump, and takes effect at the next step. -/
theorem C27_retune (i : Iter) (ops : List StepOp) :
    ((runOps i ops).phase.toNat : ℤ) = (i.phase.toNat + travelled i.incr.toNat ops) % 2 ^ 32 := by
  induction ops generalizing i with
  | nil =>
    have := i.phase.isLt
    simp only [runOps, travelled]
    omega
  | cons o t ih =>
    have hp := i.phase.isLt
    have hi := i.incr.isLt
    cases o with
    | inc =>
      simp only [runOps, travelled]
      rw [ih]
      simp only [Iter.inc, BitVec.toNat_add]
      generalize travelled i.incr.toNat t = z
      omega
    | dec =>
      simp only [runOps, travelled]
      rw [ih]
      simp only [Iter.dec, BitVec.toNat_sub]
      generalize travelled i.incr.toNat t = z
      omega
    | retune d =>
      simp only [runOps, travelled]
      rw [ih]
      rfl

example : (runOps ⟨0#32, 5#32⟩ [.inc, .retune 7#32, .inc, .dec, .dec]).phase = -2#32 := by decide

/-- C27: the oscillator phase is periodic: it returns to the starting point after `n` steps exactly when
`n` increments are a whole number of turns. -/
theorem C27_periodic (i : Iter) (n : ℕ) : Iter.inc^[n] i = i ↔ 2 ^ 32 ∣ n * i.incr.toNat := by
  obtain ⟨h1, h2⟩ := iterate_inc_toNat i n
  have hlt := i.phase.isLt
  constructor
  · intro h
    rw [h] at h1
    have : (i.phase.toNat + n * i.incr.toNat) % 2 ^ 32 = i.phase.toNat % 2 ^ 32 := by omega
    have h3 : (i.phase.toNat + n * i.incr.toNat) ≡ i.phase.toNat + 0 [MOD 2 ^ 32] := this
    exact (Nat.modEq_zero_iff_dvd).mp (Nat.ModEq.add_left_cancel' _ h3)
  · rintro ⟨k, hk⟩
    have : (Iter.inc^[n] i).phase = i.phase := by
      apply BitVec.eq_of_toNat_eq
      rw [h1, hk, Nat.add_mul_mod_self_left]
      omega
    generalize Iter.inc^[n] i = j at *
    cases i; cases j
    cases this; cases h2; rfl

example : Iter.inc^[8] ⟨0x12345678#32, 0x20000000#32⟩ = (⟨0x12345678#32, 0x20000000#32⟩ : Iter) := by
  rw [C27_periodic]; decide

/-- C28: `last()` holds exactly when the next step wraps past the end of the turn; `first()` holds exactly
when the previous step did. -/
theorem C28_flags (i : Iter) :
    (i.last = true ↔ 2 ^ 32 ≤ i.phase.toNat + i.incr.toNat)
    ∧ (i.first = true ↔ 2 ^ 32 ≤ i.dec.phase.toNat + i.dec.incr.toNat) := by
  have hp := i.phase.isLt
  have hi := i.incr.isLt
  constructor
  · have he : Phase.end_.toNat = 2 ^ 32 - 1 := by decide
    unfold Iter.last
    rw [BitVec.ult, decide_eq_true_eq, BitVec.toNat_sub, he]
    omega
  · simp only [Iter.first, Iter.dec, BitVec.ult, decide_eq_true_eq, BitVec.toNat_sub]
    omega

/-- C28: `last()` at one sample announces `first()` at the next. -/
theorem C28_last_first (i : Iter) : i.last = i.inc.first := by
  have h1 := (C28_flags i).1
  have h2 := (C28_flags i.inc).2
  rw [(C27_inverse i).1] at h2
  rw [Bool.eq_iff_iff, h1, h2]

/-- C28: over any run of `n` samples, the number of samples flagged `last()` is the number of completed
turns, `⌊(p + n d) / 2^32⌋`: exactly one flag per cycle. -/
theorem C28_one_flag_per_cycle (i : Iter) (n : ℕ) :
    ((List.range n).filter (fun k => (Iter.inc^[k] i).last)).length
      = (i.phase.toNat + n * i.incr.toNat) / 2 ^ 32 := by
  induction n with
  | zero => have := i.phase.isLt; simp; omega
  | succ n ih =>
    rw [List.range_succ, List.filter_append, List.length_append, ih]
    obtain ⟨h1, h2⟩ := iterate_inc_toNat i n
    have hl := (C28_flags (Iter.inc^[n] i)).1
    rw [h1, h2] at hl
    have hi := i.incr.isLt
    have e : i.phase.toNat + (n + 1) * i.incr.toNat = i.phase.toNat + n * i.incr.toNat + i.incr.toNat := by
      ring
    rw [e]
    generalize i.phase.toNat + n * i.incr.toNat = s at *
    by_cases hc : (Iter.inc^[n] i).last = true
    · have := hl.mp hc
      simp [hc]
      omega
    · have h3 : ¬ 2 ^ 32 ≤ s % 2 ^ 32 + i.incr.toNat := fun h => hc (hl.mpr h)
      simp [hc]
      omega

example : ((List.range 10).filter (fun k => (Iter.inc^[k] ⟨0#32, 0x40000000#32⟩).last)) = [3, 7] := by decide

theorem negBool_or (x : BitVec 32) (b : Bool) :
    x ||| Iter.negBool b = if b then 0xffffffff#32 else x := by
  cases b
  · simp [Iter.negBool]
  · have : Iter.negBool true = BitVec.allOnes 32 := by decide
    rw [this, BitVec.or_allOnes]; rfl

theorem negBool_and (x : BitVec 32) (b : Bool) : x &&& Iter.negBool b = if b then x else 0#32 := by
  cases b
  · simp [Iter.negBool]
  · have : Iter.negBool true = BitVec.allOnes 32 := by decide
    rw [this, BitVec.and_allOnes]; rfl

theorem oneShotInc_toNat (i : Iter) :
    i.oneShotInc.phase.toNat = min (2 ^ 32 - 1) (i.phase.toNat + i.incr.toNat) := by
  have hp := i.phase.isLt
  have hi := i.incr.isLt
  simp only [Iter.oneShotInc, negBool_or, BitVec.ult, decide_eq_true_eq, BitVec.toNat_add]
  split
  · simp only [BitVec.toNat_ofNat]; omega
  · simp only [BitVec.toNat_add]; omega

theorem oneShotDec_toNat (i : Iter) :
    i.oneShotDec.phase.toNat = i.phase.toNat - i.incr.toNat := by
  have hp := i.phase.isLt
  have hi := i.incr.isLt
  simp only [Iter.oneShotDec, negBool_and, BitVec.ule, decide_eq_true_eq, BitVec.toNat_sub]
  split
  · simp only [BitVec.toNat_sub]; omega
  · simp only [BitVec.toNat_ofNat]; omega

/-- C29: after `n` one-shot increments the phase is `min(end, p + n d)`; after `n` one-shot decrements it
is `max(begin, p - n d)` (natural-number subtraction stops at `0`).  It never wraps around. -/
theorem C29_saturates (i : Iter) (n : ℕ) :
    (Iter.oneShotInc^[n] i).phase.toNat = min (2 ^ 32 - 1) (i.phase.toNat + n * i.incr.toNat)
    ∧ (Iter.oneShotDec^[n] i).phase.toNat = i.phase.toNat - n * i.incr.toNat
    ∧ (Iter.oneShotInc^[n] i).incr = i.incr ∧ (Iter.oneShotDec^[n] i).incr = i.incr := by
  induction n with
  | zero => have := i.phase.isLt; simp; omega
  | succ n ih =>
    obtain ⟨h1, h2, h3, h4⟩ := ih
    rw [Function.iterate_succ_apply', Function.iterate_succ_apply', oneShotInc_toNat, oneShotDec_toNat,
      h1, h2, h3, h4]
    have e : (n + 1) * i.incr.toNat = n * i.incr.toNat + i.incr.toNat := by ring
    rw [e]
    refine ⟨?_, ?_, h3, h4⟩ <;> omega

/-- C29: a one-shot iterator started at `begin` is at `end` after `n` steps exactly when `n d ≥ 2^32-1`: it
reaches the end after exactly `⌈(2^32-1)/d⌉` steps and stays there for ever. -/
theorem C29_reaches_end (i : Iter) (n : ℕ) :
    (Iter.oneShotInc^[n] i.begin_).phase = Phase.end_ ↔ 2 ^ 32 - 1 ≤ n * i.incr.toNat := by
  have h := (C29_saturates i.begin_ n).1
  have e0 : i.begin_.phase.toNat = 0 := by simp [Iter.begin_, Phase.begin_]
  have e1 : i.begin_.incr = i.incr := rfl
  rw [e0, e1] at h
  rw [← BitVec.toNat_inj, h]
  have : Phase.end_.toNat = 2 ^ 32 - 1 := by decide
  rw [this]
  omega

example : (Iter.oneShotInc^[4] ⟨0#32, 0x40000000#32⟩).phase = Phase.end_
    ∧ (Iter.oneShotInc^[3] ⟨0#32, 0x40000000#32⟩).phase = 0xC0000000#32
    ∧ (Iter.oneShotInc^[9] ⟨0#32, 0x40000000#32⟩).phase = Phase.end_
    ∧ (Iter.oneShotDec^[2] ⟨0x50000000#32, 0x40000000#32⟩).phase = 0#32 := by decide

theorem toU32_ok {x : ℚ} (h : 0 ≤ x) (h2 : x < 2 ^ 32) :
    ∃ r : Phase.Rep, toU32 x = .ok r ∧ (r.toNat : ℤ) = ⌊x⌋ := by
  have hlt : ⌊x⌋ < 2 ^ 32 := by
    have := Int.floor_le x
    have h3 : (⌊x⌋ : ℚ) < ((2 ^ 32 : ℤ) : ℚ) := by push_cast; linarith
    exact_mod_cast h3
  have h0 : 0 ≤ ⌊x⌋ := Int.floor_nonneg.mpr h
  refine ⟨BitVec.ofNat 32 ⌊x⌋.toNat, ?_, ?_⟩
  · unfold toU32; rw [if_pos ⟨by linarith, h2⟩]
  · rw [BitVec.toNat_ofNat]; omega

/-- C30: converting a phase to `double` and back is the identity, for all `2^32` phases. -/
theorem C30_double_roundtrip (p : Phase.Rep) : frac_phase (toDouble p) = .ok p := by
  have hp : (p.toNat : ℚ) < 2 ^ 32 := by exact_mod_cast p.isLt
  have h0 : (0 : ℚ) ≤ p.toNat := by positivity
  unfold frac_phase toDouble
  rw [if_pos (by positivity), if_neg (by rw [not_le, div_lt_one (by norm_num)]; exact hp)]
  have e : (2 : ℚ) ^ 32 * (p.toNat / 2 ^ 32) = p.toNat := by field_simp
  rw [e]
  obtain ⟨r, hr, hv⟩ := toU32_ok h0 hp
  rw [hr]
  congr 1
  apply BitVec.eq_of_toNat_eq
  have : ⌊((p.toNat : ℕ) : ℚ)⌋ = (p.toNat : ℤ) := by simp
  omega

/-- C30: a fraction of a turn converts to the phase `⌊2^32 f⌋`, capped at `end`; every non-negative
fraction is defined, and every negative one trips the assertion. -/
theorem C30_fraction (f : ℚ) :
    (0 ≤ f → ∃ r, frac_phase f = .ok r ∧ (r.toNat : ℤ) = min ⌊(2 : ℚ) ^ 32 * f⌋ (2 ^ 32 - 1))
    ∧ (f < 0 → frac_phase f = .error .assertFail) := by
  constructor
  · intro h
    unfold frac_phase
    rw [if_pos h]
    by_cases h1 : 1 ≤ f
    · rw [if_pos h1]
      refine ⟨_, rfl, ?_⟩
      have : (2 ^ 32 : ℤ) ≤ ⌊(2 : ℚ) ^ 32 * f⌋ := by
        rw [Int.le_floor]; push_cast; nlinarith
      have e : (Phase.end_.toNat : ℤ) = 2 ^ 32 - 1 := by decide
      omega
    · rw [if_neg h1]
      push Not at h1
      obtain ⟨r, hr, hv⟩ := toU32_ok (x := 2 ^ 32 * f) (by positivity) (by nlinarith)
      refine ⟨r, hr, ?_⟩
      have := r.isLt
      omega
  · intro h
    unfold frac_phase
    rw [if_neg (by linarith)]

example : frac_phase (1 / 4) = .ok 0x40000000#32 := by
  have := C30_double_roundtrip 0x40000000#32
  have e : toDouble 0x40000000#32 = 1 / 4 := by unfold toDouble; norm_num
  rwa [e] at this

open Rounding in
/-- C30: converting a phase to `float` gives a fraction in `[0, 1]` (`1` is attained), and converting back
is always defined and off by at most `128` units out of `2^32`. -/
theorem C30_float_roundtrip (p : Phase.Rep) :
    0 ≤ toFloat fl32 p ∧ toFloat fl32 p ≤ 1 ∧
    ∃ r, frac_phase (toFloat fl32 p) = .ok r ∧ |(r.toNat : ℤ) - p.toNat| ≤ 128 := by
  have hp := p.isLt
  have h0 : (0 : ℚ) ≤ p.toNat := by positivity
  have hf0 : 0 ≤ fl32 p.toNat := fl32_lawful.nonneg h0
  have hrep : Rep 24 (-149) ((2 : ℚ) ^ (32 : ℤ)) := rep_zpow (by norm_num)
  have hf1 : fl32 p.toNat ≤ 2 ^ 32 := by
    have : (p.toNat : ℚ) ≤ (2 : ℚ) ^ (32 : ℤ) := by exact_mod_cast hp.le
    have := fl32_lawful.le_of_rep hrep this
    exact_mod_cast this
  have hnear : |fl32 p.toNat - p.toNat| ≤ 128 := by
    let k := (p.toNat + 128) / 256
    have hk : k ≤ 2 ^ 24 := by omega
    have hr : Rep 24 (-149) (k * (2 : ℚ) ^ (8 : ℤ)) := by
      refine ⟨k, 8, ?_, by norm_num, by norm_num⟩
      rw [abs_of_nonneg (by positivity)]
      exact_mod_cast hk
    refine (rnd_nearest (by norm_num) _ hr).trans ?_
    have h1 : (k : ℤ) * 256 ≤ p.toNat + 128 := by omega
    have h2 : (p.toNat : ℤ) ≤ k * 256 + 128 := by omega
    have h1' : (k : ℚ) * 256 ≤ p.toNat + 128 := by exact_mod_cast h1
    have h2' : (p.toNat : ℚ) ≤ k * 256 + 128 := by exact_mod_cast h2
    have e : (2 : ℚ) ^ (8 : ℤ) = 256 := by norm_num
    rw [e, abs_le]
    constructor <;> linarith
  -- the rounded value is an integer
  have hint : ∃ z : ℤ, fl32 p.toNat = z := by
    by_cases hsmall : p.toNat ≤ 2 ^ 24
    · refine ⟨p.toNat, ?_⟩
      have : Rep 24 (-149) ((p.toNat : ℤ) : ℚ) := by
        apply rep_int (by norm_num)
        rw [abs_of_nonneg (by positivity)]
        exact_mod_cast hsmall
      have := fl32_lawful.fix _ this
      exact_mod_cast this
    · have hu : 0 ≤ ulpExp 24 (-149) p.toNat := by
        unfold ulpExp
        refine le_max_of_le_left ?_
        have : (24 : ℤ) ≤ Int.log 2 |(p.toNat : ℚ)| := by
          rw [abs_of_nonneg h0, ← Int.zpow_le_iff_le_log (by norm_num)]
          · have : 2 ^ 24 ≤ p.toNat := by omega
            exact_mod_cast this
          · have : 0 < p.toNat := by omega
            exact_mod_cast this
        push_cast
        omega
      obtain ⟨n, hn⟩ := Int.eq_ofNat_of_zero_le hu
      refine ⟨rneInt (p.toNat / (2 : ℚ) ^ ulpExp 24 (-149) p.toNat) * 2 ^ n, ?_⟩
      show rnd 24 (-149) _ = _
      unfold rnd
      rw [hn]
      push_cast
      simp
  obtain ⟨z, hz⟩ := hint
  rw [hz] at hf0 hf1 hnear
  unfold toFloat
  rw [hz]
  refine ⟨by positivity, by rw [div_le_one (by norm_num)]; exact hf1, ?_⟩
  obtain ⟨r, hr, hv⟩ := (C30_fraction ((z : ℚ) / 2 ^ 32)).1 (by positivity)
  refine ⟨r, hr, ?_⟩
  have e : (2 : ℚ) ^ 32 * (z / 2 ^ 32) = z := by field_simp
  rw [e, Int.floor_intCast] at hv
  have hz1 : z ≤ 2 ^ 32 := by exact_mod_cast hf1
  have hn : |z - (p.toNat : ℤ)| ≤ 128 := by exact_mod_cast hnear
  rw [abs_le] at hn ⊢
  constructor <;> omega

open Rounding in
/-- C30: for `0 ≤ f < sps` the phase increment for a frequency is defined (no undefined conversion), and
`n` samples at that increment advance the phase by `n f / sps` turns up to an error of `n (1 + 2^-21)`
units of `2^-32` turn. -/
theorem C30_frequency (f : ℚ) (sps : ℕ) (h0 : 0 ≤ f) (h1 : f < sps) (hs : sps < 2 ^ 32)
    (hf : Rep 53 (-1074) f) :
    ∃ d, Phase.ofFreq fl64 f sps = .ok d ∧
      ∀ n : ℕ, |(n * d.toNat : ℚ) - 2 ^ 32 * (n * f / sps)| ≤ (n : ℚ) * (1 + 1 / 2 ^ 21) := by
  have hsp : (0 : ℚ) < sps := lt_of_le_of_lt h0 h1
  have hs0 : sps ≠ 0 := by rintro rfl; simp at hsp
  -- the largest representable quotient below one
  have hq : f ≤ sps * (1 - 1 / 2 ^ 53) := by
    obtain ⟨m, e, hm, he, rfl⟩ := hf
    have hm' : m ≤ 2 ^ 53 := (le_abs_self m).trans hm
    have hsq : (sps : ℚ) < 2 ^ 32 := by exact_mod_cast hs
    rcases le_or_gt 0 e with h | h
    · obtain ⟨k, rfl⟩ := Int.eq_ofNat_of_zero_le h
      have e1 : (m : ℚ) * (2 : ℚ) ^ ((k : ℕ) : ℤ) = ((m * 2 ^ k : ℤ) : ℚ) := by push_cast; simp
      rw [e1] at h1 ⊢
      have h2 : m * 2 ^ k + 1 ≤ (sps : ℤ) := by exact_mod_cast h1
      have h3 : ((m * 2 ^ k : ℤ) : ℚ) + 1 ≤ sps := by exact_mod_cast h2
      nlinarith
    · obtain ⟨k, hk⟩ := Int.eq_ofNat_of_zero_le (a := -e - 1) (by omega)
      have e1 : (2 : ℚ) ^ e = 1 / 2 ^ (k + 1) := by
        have : e = -((k + 1 : ℕ) : ℤ) := by push_cast; omega
        rw [this, zpow_neg, zpow_natCast, one_div]
      rw [e1] at h1 ⊢
      have hpos : (0 : ℚ) < 2 ^ (k + 1) := by positivity
      rw [mul_one_div, div_lt_iff₀ hpos] at h1
      rw [mul_one_div, div_le_iff₀ hpos]
      have h2 : m < (sps * 2 ^ (k + 1) : ℤ) := by exact_mod_cast h1
      have h3 : (2 ^ 53 : ℤ) * m ≤ (sps * 2 ^ (k + 1)) * (2 ^ 53 - 1) := by
        have e2 : ((sps : ℤ) * 2 ^ (k + 1)) = 2 * (sps * 2 ^ k) := by ring
        rw [e2] at h2 ⊢
        generalize (sps : ℤ) * 2 ^ k = N at *
        omega
      have h4 : (2 ^ 53 : ℚ) * m ≤ (sps * 2 ^ (k + 1)) * (2 ^ 53 - 1) := by exact_mod_cast h3
      have h5 : (sps : ℚ) * (1 - 1 / 2 ^ 53) * 2 ^ (k + 1) = (sps * 2 ^ (k + 1)) * (2 ^ 53 - 1) / 2 ^ 53 := by
        field_simp
      rw [h5, le_div_iff₀ (by norm_num)]
      linarith
  have hx0 : 0 ≤ 2 ^ 32 * f / sps := by positivity
  have hx1 : 2 ^ 32 * f / sps ≤ ((2 ^ 53 - 1 : ℤ) : ℚ) * (2 : ℚ) ^ (-21 : ℤ) := by
    rw [div_le_iff₀ hsp]
    have : ((2 ^ 53 - 1 : ℤ) : ℚ) * (2 : ℚ) ^ (-21 : ℤ) = 2 ^ 32 * (1 - 1 / 2 ^ 53) := by norm_num
    rw [this]
    nlinarith
  have hrep : Rep 53 (-1074) (((2 ^ 53 - 1 : ℤ) : ℚ) * (2 : ℚ) ^ (-21 : ℤ)) :=
    ⟨_, _, by norm_num, by norm_num, rfl⟩
  have hfl0 := fl64_lawful.nonneg hx0
  have hfl1 := fl64_lawful.le_of_rep hrep hx1
  have herr := fl64_lawful.err (2 ^ 32 * f / sps)
  have hx2 : 2 ^ 32 * f / sps ≤ 2 ^ 32 := hx1.trans (by norm_num)
  have herr2 : |fl64 (2 ^ 32 * f / sps) - 2 ^ 32 * f / sps| ≤ 1 / 2 ^ 21 := by
    refine herr.trans (max_le ?_ ?_)
    · rw [abs_of_nonneg hx0, div_le_iff₀ (by norm_num)]
      exact hx2.trans (by norm_num)
    · have h1 : (2 : ℚ) ^ (-1074 : ℤ) ≤ (2 : ℚ) ^ (-21 : ℤ) :=
        zpow_le_zpow_right₀ (by norm_num) (by norm_num)
      have h2 : (2 : ℚ) ^ (-21 : ℤ) = 1 / 2 ^ 21 := by norm_num
      have h3 := two_zpow_pos (-1074)
      rw [h2] at h1
      linarith
  generalize hx : 2 ^ 32 * f / (sps : ℚ) = x at *
  generalize hy : fl64 x = y at *
  obtain ⟨d, hd, hv⟩ := toU32_ok (x := y) hfl0 (lt_of_le_of_lt hfl1 (by norm_num))
  refine ⟨d, ?_, ?_⟩
  · unfold Phase.ofFreq
    rw [if_neg hs0, hx, hy, hd]
  · intro n
    have hfl := Int.floor_le y
    have hfl2 := Int.lt_floor_add_one y
    have hdq : (d.toNat : ℚ) = ⌊y⌋ := by exact_mod_cast hv
    have e : (n * d.toNat : ℚ) - 2 ^ 32 * (n * f / sps) = n * (d.toNat - x) := by
      rw [← hx]; ring
    rw [e, abs_mul, abs_of_nonneg (by positivity : (0 : ℚ) ≤ n)]
    gcongr
    rw [hdq]
    rw [abs_le] at herr2 ⊢
    constructor <;> linarith

open Rounding in
/-- The hypotheses of `C30_frequency` hold for 440 Hz at 44100 Hz. -/
example : (0 : ℚ) ≤ 440 ∧ (440 : ℚ) < (44100 : ℕ) ∧ 44100 < 2 ^ 32 ∧ Rep 53 (-1074) 440 :=
  ⟨by norm_num, by norm_num, by norm_num, ⟨440, 0, by norm_num, by norm_num, by norm_num⟩⟩

/-- C30: a frequency of at least the sampling rate is *not* supported: the conversion to the phase
increment is undefined. -/
theorem C30_violation_frequency (sps : ℕ) (hs : 0 < sps) (f : ℚ) (h : (sps : ℚ) ≤ f) :
    Phase.ofFreq Rounding.fl64 f sps = .error .badFloatCast := by
  have hsp : (0 : ℚ) < sps := by exact_mod_cast hs
  have h1 : (2 : ℚ) ^ (32 : ℤ) ≤ 2 ^ 32 * f / sps := by
    rw [le_div_iff₀ hsp]
    have : (2 : ℚ) ^ (32 : ℤ) = 2 ^ 32 := by norm_num
    rw [this]; nlinarith
  have h2 := Rounding.fl64_lawful.ge_of_rep (Rounding.rep_zpow (by norm_num)) h1
  unfold Phase.ofFreq toU32
  rw [if_neg (by omega), if_neg]
  rintro ⟨_, h3⟩
  have : (2 : ℚ) ^ (32 : ℤ) = 2 ^ 32 := by norm_num
  linarith

end Verif
