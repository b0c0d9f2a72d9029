import Mathlib.Tactic.Linarith
import Mathlib.Tactic.Positivity
import Mathlib.Tactic.FieldSimp
import Verif.Proof.PeriodDetector
import Verif.Props.ZeroCrossing
/-!
# Properties C21–C24: `period_detector`

The safety and bitstream theorems hold for every floating-point semantics; the bounds on the periodicity are
for exact arithmetic (`ℚ`).  The window is limited to `2^27` frames (46 minutes at 48 kHz).
-/
namespace Verif
open FloatOps
variable {F : Type} [FloatOps F]

attribute [local irreducible] i32 u64

/-- The states of a successfully constructed detector with a window of at most `2^27` frames, after feeding
some signal. -/
def PReach (lowest highest : F) (sps : Nat) (hyst : F) (p : PD F) : Prop :=
  ∃ p0 xs ys, PD.mk' lowest highest sps hyst = .ok p0 ∧ p0.zc.window ≤ 2 ^ 27 ∧ runC PD.step p0 xs = .ok (p, ys)

theorem pd_mk {lowest highest : F} {sps : Nat} {hyst : F} {p : PD F} (h : PD.mk' lowest highest sps hyst = .ok p)
    (hw : p.zc.window ≤ 2 ^ 27) : PD.PInv p.zc.window p ∧ le highest lowest = false ∧ ∃ w, w ≤ 2 ^ 27 ∧ p.zc = ZC.mk' hyst w := by
  rw [PD.mk'] at h
  match hw' : toU64 (mul (mul (div (lit 1) lowest) (lit 2)) (ofInt sps) : F), h with
  | .error _, h => cases h
  | .ok w, h =>
    match toU64 (mul (div (lit 1) highest) (ofInt sps) : F), h with
    | .error _, h => cases h
    | .ok mp, h =>
      match toI32 (div highest lowest : F), h with
      | .error _, h => cases h
      | .ok r, h =>
        simp only [bind, Except.bind] at h
        split at h
        · cases h
        · rename_i hle
          injection h with h
          subst h
          have hw2 : w ≤ 2 ^ 27 := by
            have : (ZC.mk' hyst w).window = adjustWindowSize w * 64 := rfl
            simp only [this, adjustWindowSize] at hw
            omega
          refine ⟨⟨⟨⟨?_, ZC.wok_adjust w hw2⟩, rfl, ZC.inv_mk hyst w hw2⟩, rfl, Or.inr (Or.inl rfl)⟩, by simpa using hle, w, hw2, rfl⟩
          have hok := ZC.wok_adjust w hw2
          have hge := hok.ge
          have hlt := hok.lt
          obtain ⟨n, hn⟩ := hok.even
          show (Bitset.mk' 64 (adjustWindowSize w * 64)).size = adjustWindowSize w * 64
          rw [hn, mul_comm 64 n]
          exact (by simp [Bitset.mk', Bitset.size]; omega)

theorem pd_run {W : Nat} {p : PD F} (h : PD.PInv W p) (xs : List F) :
    Safe (runC PD.step p xs) fun r => PD.PInv W r.1 ∧ r.2.length = xs.length ∧ r.1.minPeriod = p.minPeriod ∧
      ∃ zs, runC ZC.step p.zc xs = .ok (r.1.zc, zs) := by
  induction xs generalizing p with
  | nil => exact Safe.ok ⟨h, rfl, rfl, [], rfl⟩
  | cons x xs ih =>
    refine (PD.step_ok h x).bind fun r hr => ?_
    refine (ih hr.1).bind fun r2 hr2 => Safe.ok ⟨hr2.1, by simp [hr2.2.1], by rw [hr2.2.2.1, hr.2.2.2.1], ?_⟩
    obtain ⟨zs, e⟩ := hr2.2.2.2
    exact ⟨r.1.zc.state :: zs, by simp only [runC, hr.2.2.1, bind, Except.bind, e]; rfl⟩

theorem preach_inv {lowest highest : F} {sps : Nat} {hyst : F} {p : PD F} (h : PReach lowest highest sps hyst p) :
    PD.PInv p.zc.window p ∧ ∃ w, w ≤ 2 ^ 27 ∧ ZReach hyst w p.zc := by
  obtain ⟨p0, xs, ys, h0, hw, hr⟩ := h
  obtain ⟨i0, -, w, hw2, hz⟩ := pd_mk h0 hw
  rcases pd_run i0 xs with ⟨r, e, i, -, -, zs, ez⟩ | e
  · rw [hr] at e
    injection e with e
    subst e
    have : p.zc.window = p0.zc.window := i.inv.window
    rw [this]; exact ⟨i, w, hw2, xs, zs, by rw [← hz]; exact ez⟩
  · rw [hr] at e; cases e

/-! ## C21 -/

theorem periodicity_bounds {W c : Nat} (hW : ZC.WOk W) (hc : c ≤ PD.cmpLen W) (p : PD ℚ) (hp : p.weight = 2 / W) :
    0 ≤ PD.periodicityOf p c ∧ PD.periodicityOf p c ≤ 1 := by
  have h1 : PD.periodicityOf p c = 1 - c * (2 / W : ℚ) := by
    show (1 : ℚ) - (((c : Int) : ℚ) * p.weight) = _
    rw [hp]; push_cast; rfl
  have hW0 : (0 : ℚ) < W := by have := hW.ge; exact_mod_cast (by omega : 0 < W)
  have hcW : (c : ℚ) * 2 ≤ W := by
    have := PD.cmpLen_le hW
    exact_mod_cast (by omega : c * 2 ≤ W)
  rw [h1]
  constructor
  · have : (c : ℚ) * (2 / W) = c * 2 / W := by ring
    rw [this, sub_nonneg, div_le_one hW0]; exact hcW
  · have : (0 : ℚ) ≤ c * (2 / W) := by positivity
    linarith

theorem fok_bounds {W : Nat} {p : PD ℚ} (h : PD.PInv W p) {x : ℚ} (hx : PD.FOk W p x) : x = -1 ∨ (0 ≤ x ∧ x ≤ 1) := by
  rcases hx with h1 | h1 | ⟨c, hc, h1⟩
  · exact Or.inl h1
  · right; rw [h1]; exact ⟨le_refl (0 : ℚ), (by norm_num : (0 : ℚ) ≤ 1)⟩
  · right; rw [h1]
    exact periodicity_bounds h.bits.ok hc p (by rw [h.weight]; simp [FloatOps.div, FloatOps.lit, FloatOps.ofInt])

/-- **C21** At every moment of every run the periodicity of the fundamental is in `[0, 1]`, or it is `-1`, the
code's flag for a window without two loud pulses in both halves. -/
theorem C21_periodicity (lowest highest : ℚ) (sps : Nat) (hyst : ℚ) (p : PD ℚ) (h : PReach lowest highest sps hyst p) :
    p.fundamental.periodicity = -1 ∨ (0 ≤ p.fundamental.periodicity ∧ p.fundamental.periodicity ≤ 1) :=
  fok_bounds (preach_inv h).1 (preach_inv h).1.fund

/-- **C21/C24** `harmonic(index)` never reads outside the bitset, and its result has the same range. -/
theorem C21_harmonic (lowest highest : ℚ) (sps : Nat) (hyst : ℚ) (p : PD ℚ) (h : PReach lowest highest sps hyst p)
    (index : Nat) :
    ∃ x, p.harmonic index = .ok x ∧ (x = -1 ∨ (0 ≤ x ∧ x ≤ 1)) := by
  obtain ⟨i, -⟩ := preach_inv h
  rw [PD.harmonic]
  have h0 : (lit 0 : ℚ) = 0 := rfl
  split
  · split
    · exact ⟨_, rfl, fok_bounds i i.fund⟩
    · simp only []
      split
      · rename_i ht
        generalize htg : (div p.fundamental.period (ofInt index) : ℚ) = target at ht ⊢
        simp only [Bool.and_eq_true, FloatOps.le, FloatOps.lt, FloatOps.ofInt, decide_eq_true_eq] at ht
        obtain ⟨t1, t2⟩ := ht
        have t0 : 0 ≤ target := le_trans (by positivity) t1
        have hmid := i.mid
        have hlt := i.bits.ok.lt
        have f0 : 0 ≤ ⌊target + 1 / 2⌋ := Int.floor_nonneg.2 (by linarith)
        have f1 : ⌊target + 1 / 2⌋ ≤ (p.midPoint : Int) := by
          have : ⌊target + 1 / 2⌋ < (p.midPoint : Int) + 1 := by
            rw [Int.floor_lt]; push_cast at t2 ⊢; linarith
          omega
        have hr : (FloatOps.round target : ℚ) = ((⌊target + 1 / 2⌋ : Int) : ℚ) := by
          show (if 0 ≤ target then _ else _) = _
          rw [if_pos t0]
        have ht : (FloatOps.trunc (FloatOps.round target) : Option Int) = some ⌊target + 1 / 2⌋ := by
          rw [hr]
          show some (if 0 ≤ (((⌊target + 1 / 2⌋ : Int)) : ℚ) then _ else _) = _
          rw [if_pos (by exact_mod_cast f0), Int.floor_intCast]
        have hu : toU64 (FloatOps.round target : ℚ) = .ok ⌊target + 1 / 2⌋.toNat := by
          rw [toU64, ht]; simp only []; rw [if_pos ⟨f0, by omega⟩]
        obtain ⟨c, e, hc⟩ := PD.acf_ok i.bits ⌊target + 1 / 2⌋.toNat (by omega)
        rw [hu, PD.ok_bind, e, PD.ok_bind]
        exact ⟨_, rfl, Or.inr (periodicity_bounds i.bits.ok hc p (by
          rw [i.weight]; simp [FloatOps.div, FloatOps.lit, FloatOps.ofInt]))⟩
      · exact ⟨0, rfl, Or.inr ⟨le_refl _, by norm_num⟩⟩
  · exact ⟨0, rfl, Or.inr ⟨le_refl _, by norm_num⟩⟩

/-! ## C24 -/

/-- **C24** Feeding any signal to a constructed detector: no assertion fails, nothing is read or written out of
bounds (in particular the autocorrelation is only asked for lags within the bitstream), no signed overflow.
The only thing that can go wrong, under arbitrary floating-point semantics, is a conversion of a
non-representable quotient of periods to `int`. -/
theorem C24_search_in_bounds (lowest highest : F) (sps : Nat) (hyst : F) (p0 : PD F)
    (h0 : PD.mk' lowest highest sps hyst = .ok p0) (hw : p0.zc.window ≤ 2 ^ 27) (xs : List F) :
    (∃ p ys, runC PD.step p0 xs = .ok (p, ys) ∧ ys.length = xs.length) ∨
      runC PD.step p0 xs = .error .badFloatCast := by
  rcases pd_run (pd_mk h0 hw).1 xs with ⟨r, e, -, hl, -⟩ | e
  · exact Or.inl ⟨r.1, r.2, e, hl⟩
  · exact Or.inr e

theorem predictInner_ok {W : Nat} {p : PD F} (h : PD.PRep W p) (i : Nat) (hi : i < p.zc.numEdges) (e2 : ZInfo F)
    (he : p.zc.edge i = .ok e2) (k : Nat) (hk : k ≤ i) : ∃ r, PD.predictInner p e2 k = .ok r := by
  induction k with
  | zero => exact ⟨none, rfl⟩
  | succ k ih =>
    obtain ⟨a, b, ea, eb, -, -, -, q, eq⟩ := PD.edges_pair h.bits.ok h.inv (show k < i by omega) hi
    rw [he] at eb
    injection eb with eb
    subst eb
    obtain ⟨r, er⟩ := ih (by omega)
    rw [PD.predictInner, ea, PD.ok_bind]
    split
    · rw [eq, PD.ok_bind]
      split
      · exact ⟨_, rfl⟩
      · exact ⟨r, er⟩
    · exact ⟨r, er⟩

theorem predictOuter_ok {W : Nat} {p : PD F} (h : PD.PRep W p) (k : Nat) (hk : k < p.zc.numEdges) :
    ∃ r, PD.predictOuter p k = .ok r := by
  induction k with
  | zero => exact ⟨none, rfl⟩
  | succ k ih =>
    have e := ZC.edge_ok h.inv.toRep (k + 1) hk
    rw [PD.predictOuter, e, PD.ok_bind]
    split
    · exact predictInner_ok h (k + 1) hk _ e (k + 1) (le_refl _)
    · exact ih (by omega)

/-- **C24** `predict_period()` can be called at any time and never fails. -/
theorem C24_predict (lowest highest : F) (sps : Nat) (hyst : F) (p : PD F) (h : PReach lowest highest sps hyst p) :
    ∃ p' x, p.predictPeriod = .ok (p', x) := by
  obtain ⟨i, -⟩ := preach_inv h
  rw [PD.predictPeriod]
  split
  · simp only []
    split
    · have i2 : PD.PRep p.zc.window { p with predictEdge := p.edgeMark } := ⟨i.bits, i.mid, i.inv⟩
      obtain ⟨r, er⟩ := predictOuter_ok i2 (p.zc.numEdges - 1) (by show _ < p.zc.numEdges; omega)
      rw [er, PD.ok_bind]
      cases r with
      | none => exact ⟨_, _, rfl⟩
      | some x => exact ⟨_, _, rfl⟩
    · exact ⟨_, _, rfl⟩
  · exact ⟨_, _, rfl⟩

/-! ## C22 -/

/-- **C22** When a call completes a window, bit `k` of the bitstream is set exactly if frame `k` lies within a
stored pulse (from its leading edge up to its trailing edge) whose peak reaches the threshold (60% of the
largest pulse) — provided no such pulse ended before the window began (negative trailing edge). -/
theorem C22_bitstream (lowest highest : F) (sps : Nat) (hyst : F) (p : PD F) (h : PReach lowest highest sps hyst p)
    (s : F) (p' : PD F) (hs : p.step s = .ok (p', true))
    (hneg : ∀ i e, i < p'.zc.numEdges → p'.zc.edge i = .ok e → le (mul p'.zc.peakPulse (lit (6 / 10))) e.peak = true → 0 ≤ e.trailing)
    (k : Nat) (hk : k < p'.zc.window) :
    ∃ b, p'.bits.get k = .ok b ∧
      (b = true ↔ ∃ i e, i < p'.zc.numEdges ∧ p'.zc.edge i = .ok e ∧ le (mul p'.zc.peakPulse (lit (6 / 10))) e.peak = true ∧
        e.leading ≤ k ∧ (k : Int) < e.trailing) := by
  obtain ⟨inv, -⟩ := preach_inv h
  rcases PD.step_ok inv s with ⟨r, e, i, hr, -, -, hb⟩ | e
  · rw [hs] at e
    injection e with e
    subst e
    have hwin : p'.zc.window = p.zc.window := i.inv.window
    obtain ⟨g, hg, hgb⟩ := hb rfl
    refine ⟨g k, hg k (by rw [i.bits.size, ← hwin]; exact hk), ?_⟩
    rw [hgb k (by rw [← hwin]; exact hk)]
    constructor
    · rintro ⟨j, e, hj, he, hbit⟩
      rw [PD.edgeBits, Bool.and_eq_true, Bool.or_eq_true] at hbit
      refine ⟨j, e, hj, he, hbit.1, ?_⟩
      rcases hbit.2 with h1 | h1
      · have := hneg j e hj he hbit.1
        simp at h1; omega
      · simp at h1; exact h1
    · rintro ⟨j, e, hj, he, h1, h2, h3⟩
      refine ⟨j, e, hj, he, ?_⟩
      rw [PD.edgeBits, show le p'.threshold e.peak = true from h1]
      simp [h2, h3]
  · rw [hs] at e; cases e

/-- The complementary case, a defect of the code: if a stored pulse that reaches the threshold ended before the
window began, the *whole* bitstream is set (`set(pos, n, true)` with `n` negative, converted to `std::size_t`). -/
theorem C22_stale_edge_sets_all (lowest highest : F) (sps : Nat) (hyst : F) (p : PD F)
    (h : PReach lowest highest sps hyst p)
    (s : F) (p' : PD F) (hs : p.step s = .ok (p', true)) (i : Nat) (e : ZInfo F) (hi : i < p'.zc.numEdges)
    (he : p'.zc.edge i = .ok e) (hp : le p'.threshold e.peak = true) (hneg : e.trailing < 0)
    (k : Nat) (hk : k < p'.zc.window) : p'.bits.get k = .ok true := by
  obtain ⟨inv, -⟩ := preach_inv h
  rcases PD.step_ok inv s with ⟨r, er, i', hr, -, -, hb⟩ | er
  · rw [hs] at er
    injection er with er
    subst er
    have hwin : p'.zc.window = p.zc.window := i'.inv.window
    obtain ⟨g, hg, hgb⟩ := hb rfl
    rw [hg k (by rw [i'.bits.size, ← hwin]; exact hk), (hgb k (by rw [← hwin]; exact hk)).2]
    exact ⟨i, e, hi, he, by rw [PD.edgeBits, hp]; simp [hneg]⟩
  · rw [hs] at er; cases er

/-! ## C23 -/

theorem toU64_rat {x : ℚ} (h0 : 0 ≤ x) (h1 : x < 2 ^ 64) : ∃ n, toU64 x = .ok n := by
  have e : (trunc x : Option Int) = some ⌊x⌋ := by
    show some (if 0 ≤ x then _ else _) = _
    rw [if_pos h0]
  have f0 : 0 ≤ ⌊x⌋ := Int.floor_nonneg.2 h0
  have f1 : ⌊x⌋ < 2 ^ 64 := by rw [Int.floor_lt]; push_cast; exact h1
  rw [toU64, e]
  simp only []
  exact ⟨_, by rw [if_pos ⟨f0, f1⟩]⟩

theorem toI32_rat {x : ℚ} (h0 : 0 ≤ x) (h1 : x < 2 ^ 31) : ∃ n, toI32 x = .ok n := by
  have e : (trunc x : Option Int) = some ⌊x⌋ := by
    show some (if 0 ≤ x then _ else _) = _
    rw [if_pos h0]
  have f0 : 0 ≤ ⌊x⌋ := Int.floor_nonneg.2 h0
  have f1 : ⌊x⌋ < 2 ^ 31 := by rw [Int.floor_lt]; push_cast; exact h1
  rw [toI32, e]
  simp only []
  exact ⟨_, by rw [if_pos ⟨by omega, f1⟩]⟩

/-- **C23** With positive frequencies whose periods and ratio are representable, the constructor succeeds
exactly if the highest frequency is above the lowest, and throws otherwise. -/
theorem C23_validation (lowest highest : ℚ) (sps : Nat) (hyst : ℚ) (hl : 0 < lowest) (hh : 0 < highest)
    (h1 : 1 / lowest * 2 * sps < 2 ^ 64) (h2 : 1 / highest * sps < 2 ^ 64) (h3 : highest / lowest < 2 ^ 31) :
    ((∃ p, PD.mk' lowest highest sps hyst = .ok p) ↔ lowest < highest) ∧
    (PD.mk' lowest highest sps hyst = .error .thrown ↔ highest ≤ lowest) := by
  obtain ⟨w, ew⟩ := toU64_rat (x := 1 / lowest * 2 * sps) (by positivity) h1
  obtain ⟨m, em⟩ := toU64_rat (x := 1 / highest * sps) (by positivity) h2
  obtain ⟨r, er⟩ := toI32_rat (x := highest / lowest) (by positivity) h3
  have ew' : toU64 (mul (mul (div (lit 1) lowest) (lit 2)) (ofInt sps) : ℚ) = .ok w := by rw [← ew]; rfl
  have em' : toU64 (mul (div (lit 1) highest) (ofInt sps) : ℚ) = .ok m := by rw [← em]; rfl
  have er' : toI32 (div highest lowest : ℚ) = .ok r := by rw [← er]; rfl
  rw [PD.mk', ew', PD.ok_bind, em', PD.ok_bind, er', PD.ok_bind]
  have hle : (FloatOps.le highest lowest = true) ↔ highest ≤ lowest := by
    show decide (highest ≤ lowest) = true ↔ _
    simp
  by_cases h : highest ≤ lowest
  · rw [if_pos (hle.2 h)]
    exact ⟨⟨fun ⟨p, hp⟩ => (by cases hp), fun hlt => absurd h (not_le.2 hlt)⟩, ⟨fun _ => h, fun _ => rfl⟩⟩
  · rw [if_neg (fun hc => h (hle.1 hc))]
    exact ⟨⟨fun _ => not_le.1 h, fun _ => ⟨_, rfl⟩⟩, ⟨fun hc => (by cases hc), fun hc => absurd hc h⟩⟩

/-- Whatever the floating-point semantics, a constructed detector has `highest` not `<=` `lowest`. -/
theorem C23_never_constructed (lowest highest : F) (sps : Nat) (hyst : F) (p : PD F)
    (h : PD.mk' lowest highest sps hyst = .ok p) : le highest lowest = false := by
  rw [PD.mk'] at h
  match toU64 (mul (mul (div (lit 1) lowest) (lit 2)) (ofInt sps) : F), h with
  | .error _, h => cases h
  | .ok w, h =>
    match toU64 (mul (div (lit 1) highest) (ofInt sps) : F), h with
    | .error _, h => cases h
    | .ok mp, h =>
      match toI32 (div highest lowest : F), h with
      | .error _, h => cases h
      | .ok r, h =>
        simp only [bind, Except.bind] at h
        split at h
        · cases h
        · rename_i hle; simpa using hle

/-! ## Concrete runs

The detector for 100–1600 Hz at 6400 samples per second has a window of 128 frames. -/

/-- The signal offset so that the hysteresis correction cancels out. -/
def offset (l : List ℚ) : List ℚ := l.map (· + 1 / 200)

/-- Runs the example detector. -/
def pdRun (l : List ℚ) : C (PD ℚ × List Bool) := do
  let p ← PD.mk' 100 1600 6400 (1 / 100)
  runC PD.step p (offset l)

theorem pdRun_reach {l : List ℚ} {p : PD ℚ} {ys : List Bool} (h : pdRun l = .ok (p, ys)) :
    PReach (100 : ℚ) 1600 6400 (1 / 100) p := by
  rw [pdRun] at h
  have hw : ((PD.mk' (100 : ℚ) 1600 6400 (1 / 100)).toOption.map (fun p => p.zc.window)) = some 128 := by decide +kernel
  match e : PD.mk' (100 : ℚ) 1600 6400 (1 / 100), h with
  | .error _, h => cases h
  | .ok p0, h =>
    rw [e] at hw
    simp only [Except.toOption, Option.map_some, Option.some.injEq] at hw
    exact ⟨p0, _, ys, e, by omega, h⟩

/-- A train of 2-frame pulses with a period of 16 frames: the hypotheses of the theorems above are met, the
estimate is right and its periodicity is 1. -/
example : ((pdRun (List.replicate 8 ([-1, 1, 1] ++ List.replicate 13 (-1))).flatten).toOption.map
    fun r => (r.2.getLast?, r.1.zc.numEdges, r.1.fundamental.period, r.1.fundamental.periodicity)) =
    some (some true, 8, 16, 1) := by decide +kernel

/-- **C22 violation.** Two early pulses, silence, and one later pulse of four frames: when the second window is
complete, all 128 bits of the bitstream are set, although only four of its frames were in a pulse. -/
theorem C22_violation :
    ∃ p p' ys, PReach (100 : ℚ) 1600 6400 (1 / 100) p ∧ p.step (-1 + 1 / 200) = .ok (p', true) ∧
      (∀ k, k < 128 → p'.bits.get k = .ok true) ∧
      pdRun ([-1, -1, -1, 1, 1, 1] ++ List.replicate 14 (-1) ++ [1, 1] ++ List.replicate 114 (-1) ++ [1, 1, 1, 1] ++
        List.replicate 51 (-1)) = .ok (p, ys) := by
  have h : ((pdRun ([-1, -1, -1, 1, 1, 1] ++ List.replicate 14 (-1) ++ [1, 1] ++ List.replicate 114 (-1) ++
      [1, 1, 1, 1] ++ List.replicate 51 (-1))).toOption.map fun r => ((PD.step r.1 (-1 + 1 / 200)).toOption.map
        fun q => (q.2, (List.range 128).all fun k => q.1.bits.get k == .ok true))) = some (some (true, true)) := by decide +kernel
  revert h
  match e : pdRun ([-1, -1, -1, 1, 1, 1] ++ List.replicate 14 (-1) ++ [1, 1] ++ List.replicate 114 (-1) ++
      [1, 1, 1, 1] ++ List.replicate 51 (-1)) with
  | .error _ => intro h; cases h
  | .ok (p, ys) =>
    intro h
    simp only [Except.toOption, Option.map_some, Option.some.injEq] at h
    revert h
    match e2 : PD.step p (-1 + 1 / 200) with
    | .error _ => intro h; cases h
    | .ok (p', b) =>
      intro h
      simp only [Option.map_some, Option.some.injEq, Prod.mk.injEq] at h
      obtain ⟨rfl, h⟩ := h
      rw [List.all_eq_true] at h
      exact ⟨p, p', ys, pdRun_reach e, e2, fun k hk => by simpa using h k (List.mem_range.2 hk), rfl⟩

/-- **C24 violation** (undefined behaviour).  The exception in `C24_search_in_bounds` does happen: a signal that
stays above zero for more than two windows forces a reset while the state is high; the next sample starts a
pulse whose recorded crossing data does not straddle zero, so its interpolated crossing lies far away, the
first period collected is (almost) zero, and the quotient of a later period by it does not fit an `int`.
(With binary32 samples `21` and `19` it is exactly zero, the quotient infinite.) -/
theorem C24_violation_bad_cast :
    pdRun (List.replicate 257 1 ++ [21, 21 - 21 / (21 / 2 - 1 / 2 ^ 30)] ++ List.replicate 9 (-20) ++
      (List.replicate 11 ([20, 20] ++ List.replicate 8 (-20))).flatten ++ List.replicate 30 (-20)) =
      .error .badFloatCast := by
  have h : (match pdRun (List.replicate 257 1 ++ [21, 21 - 21 / (21 / 2 - 1 / 2 ^ 30)] ++ List.replicate 9 (-20) ++
      (List.replicate 11 ([20, 20] ++ List.replicate 8 (-20))).flatten ++ List.replicate 30 (-20)) with
      | .ok _ => none | .error e => some e) = some Bad.badFloatCast := by decide +kernel
  revert h
  match pdRun (List.replicate 257 1 ++ [21, 21 - 21 / (21 / 2 - 1 / 2 ^ 30)] ++ List.replicate 9 (-20) ++
      (List.replicate 11 ([20, 20] ++ List.replicate 8 (-20))).flatten ++ List.replicate 30 (-20)) with
  | .ok _ => intro h; cases h
  | .error e => intro h; injection h with h; rw [h]

end Verif
