import Mathlib.Tactic.Linarith
import Mathlib.Tactic.Positivity
import Mathlib.Tactic.FieldSimp
import Mathlib.Data.List.Perm.Subperm
import Verif.Proof.PeriodSearch
import Verif.Props.PeriodDetector
/-!
# Properties C76, C77: what `period_detector` reports, and what it predicts

C76 is for exact arithmetic; the structure of the prediction (C77) holds for every floating-point semantics.
-/
namespace Verif
open FloatOps
variable {F : Type} [FloatOps F]
attribute [local irreducible] i32 u64

/-! ## C76 -/

theorem pd_mk_consts {lowest highest : F} {sps : Nat} {hyst : F} {p : PD F} (h : PD.mk' lowest highest sps hyst = .ok p) :
    toU64 (mul (div (lit 1) highest) (ofInt sps) : F) = .ok p.minPeriod ∧ toI32 (div highest lowest : F) = .ok p.range ∧
      le highest lowest = false ∧ p.predictedPeriod = lit (-1) ∧ p.edgeMark = 0 ∧ p.predictEdge = 0 := by
  rw [PD.mk'] at h
  match hw' : toU64 (mul (mul (div (lit 1) lowest) (lit 2)) (ofInt sps) : F), h with
  | .error _, h => cases h
  | .ok w, h =>
    match e1 : toU64 (mul (div (lit 1) highest) (ofInt sps) : F), h with
    | .error _, h => cases h
    | .ok mp, h =>
      match e2 : toI32 (div highest lowest : F), h with
      | .error _, h => cases h
      | .ok r, h =>
        simp only [bind, Except.bind] at h
        split at h
        · cases h
        · rename_i hle
          injection h with h
          subst h
          exact ⟨rfl, rfl, by simpa using hle, rfl, rfl, rfl⟩

theorem pd_run_consts {W : Nat} {p : PD F} (h : PD.PInv W p) (xs : List F) :
    Post (runC PD.step p xs) fun r => r.1.range = p.range ∧ r.1.minPeriod = p.minPeriod ∧ r.1.midPoint = p.midPoint := by
  induction xs generalizing p with
  | nil => exact Post.ok ⟨rfl, rfl, rfl⟩
  | cons x xs ih =>
    rw [runC]
    refine (PD.step_post h (H := fun _ => True) ⟨trivial, fun _ _ _ => trivial⟩ x).bind fun r er hr => ?_
    have hinv : PD.PInv W r.1 := by
      rcases PD.step_ok h x with ⟨r', e', i', -⟩ | e'
      · rw [er] at e'; injection e' with e'; rw [e']; exact i'
      · rw [er] at e'; cases e'
    obtain ⟨a1, a2, a3, -⟩ := hr
    refine (ih hinv).bind fun r2 _ hr2 => Post.ok ?_
    exact ⟨by rw [hr2.1, a1], by rw [hr2.2.1, a2], by rw [hr2.2.2, a3]⟩

theorem preach_consts {lowest highest : F} {sps : Nat} {hyst : F} {p : PD F} (h : PReach lowest highest sps hyst p) :
    toU64 (mul (div (lit 1) highest) (ofInt sps) : F) = .ok p.minPeriod ∧ toI32 (div highest lowest : F) = .ok p.range ∧
      le highest lowest = false := by
  obtain ⟨p0, xs, ys, h0, hw, hr⟩ := h
  obtain ⟨c1, c2, c3, -⟩ := pd_mk_consts h0
  obtain ⟨d1, d2, -⟩ := pd_run_consts (pd_mk h0 hw).1 xs _ hr
  rw [d1, d2]; exact ⟨c1, c2, c3⟩

theorem toU64_floor {x : ℚ} {n : Nat} (h0 : 0 ≤ x) (h : toU64 x = .ok n) : (n : Int) = ⌊x⌋ := by
  have e : (trunc x : Option Int) = some ⌊x⌋ := by
    show some (if 0 ≤ x then _ else _) = _
    rw [if_pos h0]
  rw [toU64, e] at h
  simp only [] at h
  split at h
  · rename_i hc
    injection h with h
    rw [← h]; omega
  · cases h

theorem toI32_floor {x : ℚ} {n : Int} (h0 : 0 ≤ x) (h : toI32 x = .ok n) : n = ⌊x⌋ ∧ n < 2 ^ 31 := by
  have e : (trunc x : Option Int) = some ⌊x⌋ := by
    show some (if 0 ≤ x then _ else _) = _
    rw [if_pos h0]
  rw [toI32, e] at h
  simp only [] at h
  split at h
  · rename_i hc
    injection h with h
    rw [← h]; omega
  · cases h

theorem hok_rat (p : PD ℚ) (hr : 1 ≤ p.range) (hr2 : p.range < 2 ^ 31) :
    PD.HOk p fun n => 1 ≤ n ∧ (n : Int) ≤ p.range := by
  refine ⟨⟨le_refl _, by simpa using hr⟩, fun a m em => ?_⟩
  have h1 : (1 : ℚ) ≤ FloatOps.max (lit 1) a := by
    rw [FloatOps.max]
    split
    · rename_i hc
      have : (1 : ℚ) < a := by simpa [FloatOps.lt, FloatOps.lit] using hc
      exact this.le
    · exact le_refl (1 : ℚ)
  obtain ⟨hm, hm2⟩ := toI32_floor (by linarith) em
  have hm1 : 1 ≤ m := by rw [hm, Int.le_floor]; exact_mod_cast h1
  have := u64_id (x := min p.range m) (by omega) (by omega)
  constructor <;> omega

theorem two_le_filter (q : Nat → Bool) (n : Nat) :
    2 ≤ ((List.range n).filter q).length ↔ ∃ i j, i < j ∧ j < n ∧ q i = true ∧ q j = true := by
  constructor
  · intro h
    have hs : ((List.range n).filter q).Pairwise (· < ·) := List.Pairwise.filter _ List.pairwise_lt_range
    have hmem : ∀ x ∈ (List.range n).filter q, x < n ∧ q x = true := by
      intro x hx; rw [List.mem_filter, List.mem_range] at hx; exact hx
    generalize (List.range n).filter q = l at h hs hmem
    match l, h with
    | a :: b :: l, _ =>
      refine ⟨a, b, ?_, (hmem b (by simp)).1, (hmem a (by simp)).2, (hmem b (by simp)).2⟩
      rw [List.pairwise_cons] at hs
      exact hs.1 b (by simp)
  · rintro ⟨i, j, hij, hj, hi, hqj⟩
    have : [i, j].Subperm ((List.range n).filter q) := by
      apply List.Nodup.subperm
      · simp; omega
      · intro x hx
        simp at hx
        rcases hx with rfl | rfl <;> simp [List.mem_filter, hi, hqj] <;> omega
    exact this.length_le

/-- **C76** What a call that completes a window reports (exact arithmetic).  Call a stored pulse *loud* if its peak
reaches 60% of `peak_pulse()`.  If there are not two loud pulses, or none begins in the first half of the
window, or all of them end in the first half, then the periodicity is the flag `-1`.  Otherwise either nothing
is found (period `-1`, periodicity 0), or the report comes from two loud pulses: with `n` the distance of their
leading edges, which lies between the minimum period (the truncated period of the highest frequency) and half
the window, the period is the interpolated distance of their crossings divided by a number between 1 and the
(truncated) ratio of the highest to the lowest frequency, and the periodicity is one minus the fraction of
mismatches (of the bitstream with itself) at a lag that is `n` itself, or, if `n` is below 32, a local minimum of
the mismatches, no worse than `n`, beyond the minimum period. -/
theorem C76_estimate (lowest highest : ℚ) (sps : Nat) (hyst : ℚ) (hl : 0 < lowest) (p : PD ℚ)
    (h : PReach lowest highest sps hyst p) (s : ℚ) (p' : PD ℚ) (hs : p.step s = .ok (p', true)) :
    let loud := fun (j : Nat) (e : ZInfo ℚ) => j < p'.zc.numEdges ∧ p'.zc.edge j = .ok e ∧ p'.zc.peakPulse * (6 / 10) ≤ e.peak
    let half : Int := (p'.zc.window / 2 : Nat)
    let flagged := (¬ ∃ i j a b, i < j ∧ loud i a ∧ loud j b) ∨ (∀ j e, loud j e → ¬ (0 ≤ e.leading ∧ e.leading ≤ half)) ∨
      (∀ j e, loud j e → 0 ≤ e.trailing ∧ e.trailing < half)
    (flagged ∧ p'.fundamental.periodicity = -1) ∨
    (¬ flagged ∧ (p'.fundamental = ⟨-1, 0⟩ ∨
      ∃ (i j : Nat) (a b : ZInfo ℚ) (m lag count : Nat) (frac : ℚ), i < j ∧ loud i a ∧ loud j b ∧
        ⌊sps / highest⌋ ≤ b.leading - a.leading ∧ b.leading - a.leading ≤ half ∧
        a.fractionalPeriod b = .ok frac ∧ 1 ≤ m ∧ (m : Int) ≤ ⌊highest / lowest⌋ ∧
        PD.LagOf p'.bits p'.minPeriod (b.leading - a.leading).toNat lag count ∧
        p'.fundamental = ⟨frac / m, 1 - count * (2 / p'.zc.window)⟩)) := by
  intro loud half flagged
  obtain ⟨inv, -⟩ := preach_inv h
  obtain ⟨c1, c2, c3⟩ := preach_consts h
  have hhl : lowest < highest := by simpa [FloatOps.le] using c3
  have hr0 : (div highest lowest : ℚ) = highest / lowest := rfl
  rw [hr0] at c2
  have hq0 : 1 ≤ highest / lowest := by rw [le_div_iff₀ hl]; linarith
  obtain ⟨hrange, hrlt⟩ := toI32_floor (by linarith) c2
  have hr1 : 1 ≤ p.range := by rw [hrange, Int.le_floor]; exact_mod_cast hq0
  have hmp0 : (mul (div (lit 1) highest) (ofInt sps) : ℚ) = sps / highest := by
    show (1 / highest * ((sps : Int) : ℚ)) = _
    push_cast; ring
  rw [hmp0] at c1
  have hminp := toU64_floor (by apply div_nonneg <;> [positivity; linarith]) c1
  obtain ⟨k1, k2, k3, k4, k5, k6⟩ := PD.step_post inv (hok_rat p hr1 hrlt) s _ hs
  have hrep := k6 rfl
  simp only at k1 k2 k3 k4 k5 hrep
  have inv' : PD.PInv p.zc.window p' := by
    rcases PD.step_ok inv s with ⟨r', e', i', -⟩ | e'
    · rw [hs] at e'; injection e' with e'; rw [← e'] at i'; exact i'
    · rw [hs] at e'; cases e'
  have hwin : p'.zc.window = p.zc.window := inv'.inv.window
  have hhalf : half = p'.midPoint := by simp only [half]; rw [hwin, inv'.mid]
  have hloud : ∀ j e, PD.Loud p' j e ↔ loud j e := by
    intro j e
    simp only [PD.Loud, loud]
    have : (le p'.threshold e.peak = true) ↔ p'.zc.peakPulse * (6 / 10) ≤ e.peak := by
      show decide (p'.zc.peakPulse * (6 / 10) ≤ e.peak) = true ↔ _
      simp
    rw [this]
  have hWk := inv'.bits.ok
  have hWlt := hWk.lt
  have hbnd : ∀ j e, loud j e → -2 ^ 31 < e.leading ∧ e.leading < 2 ^ 31 ∧ -2 ^ 31 < e.trailing ∧ e.trailing < 2 ^ 31 ∧
      e.leading < e.trailing := by
    intro j e hje
    have hj := hje.1
    have he := ZC.edge_ok inv'.inv.toRep j hj
    rw [hje.2.1] at he
    injection he with he
    have hready : p'.zc.ready = true := by
      rcases PD.step_ok inv s with ⟨r', e', -, i', -⟩ | e'
      · rw [hs] at e'; injection e' with e'; rw [← e'] at i'; exact i'.symm
      · rw [hs] at e'; cases e'
    have hok := inv'.inv.ok
    rw [(inv'.inv.ready hready).1] at hok
    have hm := ZC.closed_mem hok (List.getElem_mem (n := p'.zc.numEdges - 1 - j) (by rw [inv'.inv.toRep.edges_length]; omega))
    rw [← he] at hm
    have hf := inv'.inv.frame
    omega
  have hmidlt : p'.midPoint < 2 ^ 28 := by rw [inv'.mid]; omega
  have hflag : ((∀ j e, PD.Loud p' j e → p'.midPoint < u64 e.leading) ∨ (∀ j e, PD.Loud p' j e → u64 e.trailing < p'.midPoint) ∨
      PD.loudCount p' < 2) ↔ flagged := by
    have hu : ∀ x : Int, -2 ^ 31 < x → x < 2 ^ 31 → (u64 x : Int) = if x < 0 then 2 ^ 64 + x else x := by
      intro x h1 h2
      split
      · rename_i hx
        have : (x % 2 ^ 64) = 2 ^ 64 + x := by omega
        rw [u64, this]; omega
      · exact u64_id (by omega) (by omega)
    have e1 : (∀ j e, PD.Loud p' j e → p'.midPoint < u64 e.leading) ↔ (∀ j e, loud j e → ¬ (0 ≤ e.leading ∧ e.leading ≤ half)) := by
      refine forall_congr' fun j => forall_congr' fun e => ?_
      rw [hloud]
      refine imp_congr_right fun hje => ?_
      obtain ⟨b1, b2, b3, b4, b5⟩ := hbnd j e hje
      have := hu e.leading b1 b2
      rw [hhalf]
      split at this <;> omega
    have e2 : (∀ j e, PD.Loud p' j e → u64 e.trailing < p'.midPoint) ↔ (∀ j e, loud j e → 0 ≤ e.trailing ∧ e.trailing < half) := by
      refine forall_congr' fun j => forall_congr' fun e => ?_
      rw [hloud]
      refine imp_congr_right fun hje => ?_
      obtain ⟨b1, b2, b3, b4, b5⟩ := hbnd j e hje
      have := hu e.trailing b3 b4
      rw [hhalf]
      split at this <;> omega
    have e3 : PD.loudCount p' < 2 ↔ ¬ ∃ i j a b, i < j ∧ loud i a ∧ loud j b := by
      rw [← not_le, PD.loudCount, two_le_filter]
      apply not_congr
      constructor
      · rintro ⟨i, j, hij, hj, hi1, hj1⟩
        have ei := ZC.edge_ok inv'.inv.toRep i (by omega)
        have ej := ZC.edge_ok inv'.inv.toRep j hj
        rw [ei] at hi1
        rw [ej] at hj1
        exact ⟨i, j, _, _, hij, (hloud _ _).1 ⟨by omega, ei, hi1⟩, (hloud _ _).1 ⟨hj, ej, hj1⟩⟩
      · rintro ⟨i, j, a, b, hij, ha, hb⟩
        obtain ⟨a1, a2, a3⟩ := (hloud _ _).2 ha
        obtain ⟨b1, b2, b3⟩ := (hloud _ _).2 hb
        exact ⟨i, j, hij, b1, by rw [a2]; exact a3, by rw [b2]; exact b3⟩
    rw [e1, e2, e3]
    have rot : ∀ A B C : Prop, (A ∨ B ∨ C) ↔ (C ∨ A ∨ B) := by intros; tauto
    exact rot _ _ _
  rw [PD.Report, hflag] at hrep
  rcases hrep with ⟨r1, r2⟩ | ⟨r1, r2⟩
  · exact Or.inl ⟨r1, r2⟩
  · refine Or.inr ⟨r1, ?_⟩
    rcases r2 with r2 | ⟨x, per, hx, hper, hfund⟩
    · exact Or.inl r2
    · right
      obtain ⟨x1, x2, ⟨x3, x3'⟩, a, b, n, lag, count, g1, g2, g3, g4, g5, g6, g7, g8, g9⟩ := hx
      have hla : loud x.i1 a := (hloud _ _).1 ⟨by omega, g1, g3⟩
      have hlb : loud x.i2 b := (hloud _ _).1 ⟨x2, g2, g4⟩
      have hn : (n : Int) = b.leading - a.leading := by
        have hle : a.leading ≤ b.leading := by
          by_contra hc
          rw [ZInfo.period, if_neg hc] at g5
          cases g5
        have b1 := hbnd _ _ hla
        have b2 := hbnd _ _ hlb
        rw [ZInfo.period, if_pos hle] at g5
        rcases lt_or_ge (b.leading - a.leading) (2 ^ 31) with hd | hd
        · rw [subInt_ok (by omega) hd] at g5
          injection g5 with g5
          rw [← g5]
          exact u64_id (by omega) (by omega)
        · rw [subInt, if_neg (by omega)] at g5
          cases g5
      have hfp : a.fractionalPeriod b = .ok per := by
        rw [PD.periodOf, g1, PD.ok_bind, g2, PD.ok_bind] at hper
        exact hper
      refine ⟨x.i1, x.i2, a, b, x.harmonic, lag, count, per, x1, hla, hlb, ?_, ?_, hfp, x3, ?_, ?_, ?_⟩
      · rw [← hminp, ← hn]; rw [k2] at g6; exact_mod_cast g6
      · rw [hhalf, ← hn]; exact_mod_cast g7
      · rw [← hrange]; exact x3'
      · rw [← hn, Int.toNat_natCast]; exact g8
      · rw [hfund, g9]
        have hw : p'.weight = 2 / (p'.zc.window : ℚ) := by
          rw [inv'.weight, hwin]; simp [FloatOps.div, FloatOps.lit, FloatOps.ofInt]
        rw [← hw]
        have hpo : (PD.periodicityOf p' count : ℚ) = 1 - count * p'.weight := by
          show (1 : ℚ) - ((count : Int) : ℚ) * p'.weight = _
          push_cast; rfl
        rw [hpo]
        rfl

/-- **C76** If both crossings straddle zero (the sample before is not above zero, the first sample of the pulse is),
the interpolated distance differs from the distance of the leading edges by less than one frame. -/
theorem C76_fraction (a b : ZInfo ℚ) (frac : ℚ) (h : a.fractionalPeriod b = .ok frac)
    (ha : a.crossing.1 ≤ 0 ∧ 0 < a.crossing.2) (hb : b.crossing.1 ≤ 0 ∧ 0 < b.crossing.2) :
    ((b.leading - a.leading : Int) : ℚ) - 1 < frac ∧ frac < ((b.leading - a.leading : Int) : ℚ) + 1 := by
  rw [ZInfo.fractionalPeriod] at h
  split at h
  · simp only [] at h
    rw [subInt] at h
    split at h
    · rw [PD.ok_bind] at h
      injection h with h
      have key : ∀ u v : ℚ, u ≤ 0 → 0 < v → 0 ≤ -u / (v - u) ∧ -u / (v - u) < 1 := by
        intro u v hu hv
        have : 0 < v - u := by linarith
        exact ⟨div_nonneg (by linarith) this.le, by rw [div_lt_one this]; linarith⟩
      obtain ⟨a1, a2⟩ := key _ _ ha.1 ha.2
      obtain ⟨b1, b2⟩ := key _ _ hb.1 hb.2
      have h' : ((b.leading - a.leading : Int) : ℚ) + (-b.crossing.1 / (b.crossing.2 - b.crossing.1) -
        -a.crossing.1 / (a.crossing.2 - a.crossing.1)) = frac := h
      rw [← h']
      constructor <;> linarith
    · cases h
  · cases h

/-! ## C77: `predict_period()` -/

/-- A user's history: construct, feed samples, ask for predictions. -/
inductive PHist (lowest highest : F) (sps : Nat) (hyst : F) : PD F → Prop
  | mk {p} : PD.mk' lowest highest sps hyst = .ok p → p.zc.window ≤ 2 ^ 27 → PHist lowest highest sps hyst p
  | step {p s p' b} : PHist lowest highest sps hyst p → p.step s = .ok (p', b) → PHist lowest highest sps hyst p'
  | predict {p p' x} : PHist lowest highest sps hyst p → p.predictPeriod = .ok (p', x) → PHist lowest highest sps hyst p'

/-- Pulse `j` is stored, and loud. -/
def LoudAt (p : PD F) (j : Nat) (e : ZInfo F) : Prop :=
  p.zc.edge j = .ok e ∧ le (mul p.zc.peakPulse (lit (6 / 10))) e.peak = true

theorem predictInner_post (p : PD F) (b : ZInfo F) (k : Nat) :
    Post (PD.predictInner p b k) fun r =>
      (∀ per, r = some per → ∃ j a, j < k ∧ LoudAt p j a ∧ a.fractionalPeriod b = .ok per ∧
        lt (ofInt p.minPeriod) per = true ∧
        ∀ j' a' q, j < j' → j' < k → LoudAt p j' a' → a'.fractionalPeriod b = .ok q → lt (ofInt p.minPeriod) q = false) ∧
      (r = none → ∀ j' a' q, j' < k → LoudAt p j' a' → a'.fractionalPeriod b = .ok q → lt (ofInt p.minPeriod) q = false) := by
  induction k with
  | zero => exact Post.ok ⟨fun per h => (by cases h), fun _ j' a' q hj => by omega⟩
  | succ k ih =>
    rw [PD.predictInner]
    refine (Post.any _).bind fun a ea _ => ?_
    have hstep : ∀ {r : Option F}, (∀ a' q, LoudAt p k a' → a'.fractionalPeriod b = .ok q → lt (ofInt p.minPeriod) q = false) →
        ((∀ per, r = some per → ∃ j a, j < k ∧ LoudAt p j a ∧ a.fractionalPeriod b = .ok per ∧
          lt (ofInt p.minPeriod) per = true ∧
          ∀ j' a' q, j < j' → j' < k → LoudAt p j' a' → a'.fractionalPeriod b = .ok q → lt (ofInt p.minPeriod) q = false) ∧
        (r = none → ∀ j' a' q, j' < k → LoudAt p j' a' → a'.fractionalPeriod b = .ok q → lt (ofInt p.minPeriod) q = false)) →
        ((∀ per, r = some per → ∃ j a, j < k + 1 ∧ LoudAt p j a ∧ a.fractionalPeriod b = .ok per ∧
          lt (ofInt p.minPeriod) per = true ∧
          ∀ j' a' q, j < j' → j' < k + 1 → LoudAt p j' a' → a'.fractionalPeriod b = .ok q → lt (ofInt p.minPeriod) q = false) ∧
        (r = none → ∀ j' a' q, j' < k + 1 → LoudAt p j' a' → a'.fractionalPeriod b = .ok q → lt (ofInt p.minPeriod) q = false)) := by
      rintro r hk ⟨h1, h2⟩
      refine ⟨fun per hr => ?_, fun hr j' a' q hj hl hq => ?_⟩
      · obtain ⟨j, a, g1, g2, g3, g4, g5⟩ := h1 per hr
        refine ⟨j, a, by omega, g2, g3, g4, fun j' a' q h3 h4 hl hq => ?_⟩
        by_cases hjk : j' = k
        · subst hjk; exact hk a' q hl hq
        · exact g5 j' a' q h3 (by omega) hl hq
      · by_cases hjk : j' = k
        · subst hjk; exact hk a' q hl hq
        · exact h2 hr j' a' q (by omega) hl hq
    split
    · rename_i hl
      refine (Post.any _).bind fun per ep _ => ?_
      split
      · rename_i hlt
        refine Post.ok ⟨fun per' h => ?_, fun h => by cases h⟩
        injection h with h
        subst h
        exact ⟨k, a, by omega, ⟨ea, hl⟩, ep, hlt, fun j' a' q h1 h2 => by omega⟩
      · rename_i hnlt
        refine ih.mono fun r hr => hstep ?_ hr
        intro a' q hl' hq
        obtain ⟨e', -⟩ := hl'
        rw [ea] at e'
        injection e' with e'
        subst e'
        rw [ep] at hq
        injection hq with hq
        subst hq
        simpa using hnlt
    · rename_i hl
      refine ih.mono fun r hr => hstep ?_ hr
      intro a' q hl' hq
      obtain ⟨e', hl2⟩ := hl'
      rw [ea] at e'
      injection e' with e'
      subst e'
      exact absurd hl2 hl

theorem predictOuter_post (p : PD F) (k : Nat) :
    Post (PD.predictOuter p k) fun r =>
      (∀ per, r = some per → ∃ i j a b, j < i ∧ i ≤ k ∧ LoudAt p i b ∧ LoudAt p j a ∧ a.fractionalPeriod b = .ok per ∧
        lt (ofInt p.minPeriod) per = true ∧ (∀ i' b', i < i' → i' ≤ k → ¬ LoudAt p i' b') ∧
        ∀ j' a' q, j < j' → j' < i → LoudAt p j' a' → a'.fractionalPeriod b = .ok q → lt (ofInt p.minPeriod) q = false) ∧
      (r = none → (∀ i' b', 1 ≤ i' → i' ≤ k → ¬ LoudAt p i' b') ∨
        ∃ i b, 1 ≤ i ∧ i ≤ k ∧ LoudAt p i b ∧ (∀ i' b', i < i' → i' ≤ k → ¬ LoudAt p i' b') ∧
          ∀ j' a' q, j' < i → LoudAt p j' a' → a'.fractionalPeriod b = .ok q → lt (ofInt p.minPeriod) q = false) := by
  induction k with
  | zero => exact Post.ok ⟨fun per h => (by cases h), fun _ => Or.inl fun i' b' h1 h2 => by omega⟩
  | succ k ih =>
    rw [PD.predictOuter]
    refine (Post.any _).bind fun b eb _ => ?_
    split
    · rename_i hl
      refine (predictInner_post p b (k + 1)).mono fun r hr => ⟨fun per h => ?_, fun h => Or.inr ?_⟩
      · obtain ⟨j, a, g1, g2, g3, g4, g5⟩ := hr.1 per h
        exact ⟨k + 1, j, a, b, g1, le_refl _, ⟨eb, hl⟩, g2, g3, g4, fun i' b' h1 h2 => by omega, g5⟩
      · exact ⟨k + 1, b, by omega, le_refl _, ⟨eb, hl⟩, fun i' b' h1 h2 => by omega, hr.2 h⟩
    · rename_i hl
      have hk : ∀ b', ¬ LoudAt p (k + 1) b' := by
        rintro b' ⟨e', hl'⟩
        rw [eb] at e'
        injection e' with e'
        subst e'
        exact hl hl'
      refine ih.mono fun r hr => ⟨fun per h => ?_, fun h => ?_⟩
      · obtain ⟨i, j, a, b, g1, g2, g3, g4, g5, g6, g7, g8⟩ := hr.1 per h
        refine ⟨i, j, a, b, g1, by omega, g3, g4, g5, g6, fun i' b' h1 h2 => ?_, g8⟩
        by_cases hik : i' = k + 1
        · subst hik; exact hk b'
        · exact g7 i' b' h1 (by omega)
      · rcases hr.2 h with g | ⟨i, b, g1, g2, g3, g4, g5⟩
        · left
          intro i' b' h1 h2
          by_cases hik : i' = k + 1
          · subst hik; exact hk b'
          · exact g i' b' h1 (by omega)
        · right
          refine ⟨i, b, g1, by omega, g3, fun i' b' h1 h2 => ?_, g5⟩
          by_cases hik : i' = k + 1
          · subst hik; exact hk b'
          · exact g4 i' b' h1 (by omega)

/-- **C77** The rule of `predict_period()`, for every floating-point semantics.  If a prediction is already known, or
none has been found since the last falling edge (the two edge counters agree), it is returned and nothing
changes.  Otherwise, with `i` the latest loud pulse (after the oldest stored one) and `j` the latest loud pulse
before it whose interpolated distance to it exceeds the minimum period, that distance is returned and
remembered; if there is no such pulse, the answer is the (unknown) one before.  In any case only the
prediction and its edge counter change. -/
theorem C77_predict_rule (p p' : PD F) (x : F) (h : p.predictPeriod = .ok (p', x)) :
    p' = { p with predictedPeriod := x, predictEdge := p'.predictEdge } ∧
    if eq p.predictedPeriod (lit (-1)) = true ∧ p.edgeMark ≠ p.predictEdge then
      p'.predictEdge = p.edgeMark ∧
      ((∃ i j a b, j < i ∧ i < p.zc.numEdges ∧ LoudAt p i b ∧ LoudAt p j a ∧ a.fractionalPeriod b = .ok x ∧
          lt (ofInt p.minPeriod) x = true ∧ (∀ i' b', i < i' → i' < p.zc.numEdges → ¬ LoudAt p i' b') ∧
          ∀ j' a' q, j < j' → j' < i → LoudAt p j' a' → a'.fractionalPeriod b = .ok q → lt (ofInt p.minPeriod) q = false) ∨
       x = p.predictedPeriod ∧ ((∀ i' b', 1 ≤ i' → i' < p.zc.numEdges → ¬ LoudAt p i' b') ∨
        ∃ i b, 1 ≤ i ∧ i < p.zc.numEdges ∧ LoudAt p i b ∧ (∀ i' b', i < i' → i' < p.zc.numEdges → ¬ LoudAt p i' b') ∧
          ∀ j' a' q, j' < i → LoudAt p j' a' → a'.fractionalPeriod b = .ok q → lt (ofInt p.minPeriod) q = false))
    else x = p.predictedPeriod ∧ p' = p := by
  rw [PD.predictPeriod] at h
  by_cases hc : eq p.predictedPeriod (lit (-1)) = true ∧ p.edgeMark ≠ p.predictEdge
  · rw [if_pos (by simpa using hc)] at h
    simp only [] at h
    rw [if_pos hc]
    split at h
    · rename_i hn
      have hn' : 1 < p.zc.numEdges := hn
      match e : PD.predictOuter { p with predictEdge := p.edgeMark } (p.zc.numEdges - 1), h with
      | .error _, h => cases h
      | .ok r, h =>
        rw [PD.ok_bind] at h
        obtain ⟨k1, k2⟩ := predictOuter_post _ _ r e
        match r, h with
        | some per, h =>
          injection h with h
          injection h with h1 h2
          subst h1 h2
          refine ⟨rfl, rfl, Or.inl ?_⟩
          obtain ⟨i, j, a, b, g1, g2, g3, g4, g5, g6, g7, g8⟩ := k1 per rfl
          exact ⟨i, j, a, b, g1, by omega, g3, g4, g5, g6, fun i' b' h1 h2 => g7 i' b' h1 (by omega), g8⟩
        | none, h =>
          injection h with h
          injection h with h1 h2
          subst h1 h2
          refine ⟨rfl, rfl, Or.inr ⟨rfl, ?_⟩⟩
          rcases k2 rfl with g | ⟨i, b, g1, g2, g3, g4, g5⟩
          · exact Or.inl fun i' b' h1 h2 => g i' b' h1 (by omega)
          · exact Or.inr ⟨i, b, g1, by omega, g3, fun i' b' h1 h2 => g4 i' b' h1 (by omega), g5⟩
    · rename_i hn
      have hn' : ¬ 1 < p.zc.numEdges := hn
      injection h with h
      injection h with h1 h2
      subst h1 h2
      exact ⟨rfl, rfl, Or.inr ⟨rfl, Or.inl fun i' b' h1 h2 => by omega⟩⟩
  · rw [if_neg (by simpa using hc)] at h
    rw [if_neg hc]
    injection h with h
    injection h with h1 h2
    subst h1 h2
    exact ⟨rfl, rfl, rfl⟩

/-- **C77** Asking again without feeding a sample gives the same answer and changes nothing. -/
theorem C77_idempotent (p p' : PD F) (x : F) (h : p.predictPeriod = .ok (p', x)) : p'.predictPeriod = .ok (p', x) := by
  obtain ⟨h1, h2⟩ := C77_predict_rule p p' x h
  have hx : p'.predictedPeriod = x := by rw [h1]
  have hem : p'.edgeMark = p.edgeMark := by rw [h1]
  have : ¬ (eq p'.predictedPeriod (lit (-1)) && p'.edgeMark != p'.predictEdge) = true := by
    split at h2
    · rw [hem, h2.1]; simp
    · rename_i hc
      rw [h2.2]; simpa using hc
  rw [PD.predictPeriod, if_neg this, hx]

/-- The detector without its prediction. -/
def PD.core (p : PD F) : PD F := { p with predictedPeriod := lit 0, predictEdge := 0 }

theorem innerLoop_core (p : PD F) (i : Nat) (first : ZInfo F) (k j : Nat) (c : Coll F) :
    PD.innerLoop p.core i first k j c = PD.innerLoop p i first k j c := by
  induction k generalizing j c with
  | zero => rfl
  | succ k ih =>
    rw [PD.innerLoop, PD.innerLoop]
    simp only [ih]
    rfl

theorem outerLoop_core (p : PD F) (k i : Nat) (c : Coll F) : PD.outerLoop p.core k i c = PD.outerLoop p k i c := by
  induction k generalizing i c with
  | zero => rfl
  | succ k ih =>
    rw [PD.outerLoop, PD.outerLoop]
    simp only [ih, innerLoop_core]
    rfl

/-- `Except.map` on results: the rest of the detector. -/
def coreR (r : C (PD F × Bool)) : C (PD F × Bool) :=
  match r with
  | .ok r => .ok (r.1.core, r.2)
  | .error e => .error e

theorem autocorrelate_core (p : PD F) :
    (match p.core.autocorrelate with | .ok q => .ok q.core | .error e => .error e : C (PD F)) =
    (match p.autocorrelate with | .ok q => .ok q.core | .error e => .error e) := by
  rw [PD.autocorrelate, PD.autocorrelate, outerLoop_core]
  have h1 : p.core.zc = p.zc := rfl
  have h2 : p.core.halfEmpty = p.halfEmpty := rfl
  have h3 : p.core.numPulses = p.numPulses := rfl
  rw [h1, h2, h3]
  split_ifs
  · rfl
  rotate_left
  · rfl
  · match PD.outerLoop p (p.zc.numEdges - 1) 0 { firstPeriod := lit 0, fundamental := none } with
    | .error _ => rfl
    | .ok c =>
      rw [PD.ok_bind, PD.ok_bind]
      match c.fundamental with
      | none => rfl
      | some x =>
        simp only []
        match PD.periodOf p.zc x with
        | .error _ => rfl
        | .ok per => rfl

/-- **C77** Predictions do not interfere: whatever predictions have been asked for, feeding a sample does the same
to the rest of the detector, with the same result. -/
theorem C77_transparent (p : PD F) (s : F) : coreR (p.core.step s) = coreR (p.step s) := by
  rw [PD.step, PD.step]
  have h1 : p.core.zc = p.zc := rfl
  rw [h1]
  match p.zc.step s with
  | .error _ => rfl
  | .ok (z, st) =>
    rw [PD.ok_bind, PD.ok_bind]
    simp only []
    -- the states before the analysis agree up to the prediction
    have hq : ∀ q q' : PD F, q.core = q'.core → coreR (if q.zc.ready = true then (do
          let p ← q.setBitstream
          let p ← p.autocorrelate
          return (p, true)) else return (q, false)) = coreR (if q'.zc.ready = true then (do
          let p ← q'.setBitstream
          let p ← p.autocorrelate
          return (p, true)) else return (q', false)) := by
      have hone : ∀ q : PD F, coreR (if q.zc.ready = true then (do
          let p ← q.setBitstream
          let p ← p.autocorrelate
          return (p, true)) else return (q, false)) = coreR (if q.core.zc.ready = true then (do
          let p ← q.core.setBitstream
          let p ← p.autocorrelate
          return (p, true)) else return (q.core, false)) := by
        intro q
        have g1 : q.core.zc = q.zc := rfl
        rw [g1]
        split_ifs
        · have g2 : q.core.setBitstream = (match q.setBitstream with | .ok r => .ok r.core | .error e => .error e) := by
            rw [PD.setBitstream, PD.setBitstream]
            have : q.core.threshold = q.threshold := rfl
            rw [this, g1]
            have : q.core.bits = q.bits := rfl
            rw [this]
            match PD.setBitsLoop q.zc q.threshold q.zc.numEdges 0 q.zc.window 0 0 q.bits.clear with
            | .error _ => rfl
            | .ok (a, b, c, d) => rfl
          rw [g2]
          match q.setBitstream with
          | .error _ => rfl
          | .ok r =>
            simp only []
            rw [PD.ok_bind, PD.ok_bind]
            have := autocorrelate_core r
            revert this
            match r.autocorrelate, r.core.autocorrelate with
            | .error e1, .error e2 => intro h; injection h with h; rw [h]
            | .error e1, .ok b => intro h; cases h
            | .ok a, .error e2 => intro h; cases h
            | .ok a, .ok b =>
              intro h
              injection h with h
              show Except.ok (a.core, true) = Except.ok (b.core, true)
              rw [h]
        · rfl
      intro q q' hqq
      rw [hone q, hone q', hqq]
    apply hq
    split_ifs <;> rfl

theorem phist_inv {lowest highest : F} {sps : Nat} {hyst : F} {p : PD F} (h : PHist lowest highest sps hyst p) :
    PD.PInv p.zc.window p := by
  induction h with
  | mk h0 hw => exact (pd_mk h0 hw).1
  | @step p s p' b _ e ih =>
    rcases PD.step_ok ih s with ⟨r, er, i, -⟩ | er
    · rw [e] at er
      injection er with er
      subst er
      have : p'.zc.window = p.zc.window := i.inv.window
      rw [this]; exact i
    · rw [e] at er; cases er
  | @predict p p' x _ e ih =>
    obtain ⟨h1, -⟩ := C77_predict_rule p p' x e
    have hz : p'.zc = p.zc := by rw [h1]
    have hb : p'.bits = p.bits := by rw [h1]
    have hm : p'.midPoint = p.midPoint := by rw [h1]
    have hw : p'.weight = p.weight := by rw [h1]
    have hf : p'.fundamental = p.fundamental := by rw [h1]
    rw [hz]
    exact ⟨⟨by rw [hb]; exact ih.bits, by rw [hm]; exact ih.mid, by rw [hz]; exact ih.inv⟩, by rw [hw]; exact ih.weight,
      by rw [hf]; exact ih.fund.congr hw.symm⟩

theorem predictPeriod_total {F : Type} [FloatOps F] {W : Nat} {p : PD F} (inv : PD.PInv W p) : ∃ p' x, p.predictPeriod = .ok (p', x) := by
  rw [PD.predictPeriod]
  split
  · simp only []
    split
    · have i2 : PD.PRep W { p with predictEdge := p.edgeMark } := ⟨inv.bits, inv.mid, inv.inv⟩
      obtain ⟨r, er⟩ := predictOuter_ok i2 (p.zc.numEdges - 1) (by show _ < p.zc.numEdges; omega)
      rw [er, PD.ok_bind]
      cases r with
      | none => exact ⟨_, _, rfl⟩
      | some x => exact ⟨_, _, rfl⟩
    · exact ⟨_, _, rfl⟩
  · exact ⟨_, _, rfl⟩

/-- **C77** At any point of any history of samples and predictions, asking for a prediction succeeds, and the answer
is either unknown (`-1`) or exceeds the minimum period, the truncated period of the highest frequency (exact
arithmetic). -/
theorem C77_predict_range (lowest highest : ℚ) (sps : Nat) (hyst : ℚ) (p : PD ℚ)
    (h : PHist lowest highest sps hyst p) :
    ∃ p' x, p.predictPeriod = .ok (p', x) ∧ (x = -1 ∨ (p.minPeriod : ℚ) < x) := by
  have key : p.predictedPeriod = -1 ∨ (p.minPeriod : ℚ) < p.predictedPeriod := by
    induction h with
    | mk h0 hw => left; exact (pd_mk_consts h0).2.2.2.1
    | @step p s p' b hp e ih =>
      have inv := phist_inv hp
      have hmin := (PD.step_post inv (H := fun _ => True) ⟨trivial, fun _ _ _ => trivial⟩ s _ e).2.1
      simp only at hmin
      have hpred : p'.predictedPeriod = lit (-1) ∨ p'.predictedPeriod = p.predictedPeriod := by
        obtain ⟨z', ez, iz, -⟩ := ZC.step_ok inv.bits.ok inv.inv s
        rw [PD.step, ez, PD.ok_bind] at e
        simp only [] at e
        generalize hp1 : (if (!z'.state && p.zc.state != z'.state) = true then
            { p with zc := z', edgeMark := p.edgeMark + 1, predictedPeriod := lit (-1) } else { p with zc := z' } : PD ℚ) = p1 at e
        have h1 : p1.predictedPeriod = lit (-1) ∨ p1.predictedPeriod = p.predictedPeriod := by
          rw [← hp1]; split
          · exact Or.inl rfl
          · exact Or.inr rfl
        generalize hp2 : (if p1.zc.isReset = true then { p1 with fundamental := PInfo.default } else p1 : PD ℚ) = p2 at e
        have h2 : p2.predictedPeriod = p1.predictedPeriod := by rw [← hp2]; split <;> rfl
        rw [← h2] at h1
        split at e
        · match e3 : p2.setBitstream, e with
          | .error _, e => cases e
          | .ok p3, e =>
            rw [PD.ok_bind] at e
            match e4 : p3.autocorrelate, e with
            | .error _, e => cases e
            | .ok p4, e =>
              injection e with e
              injection e with e5 e6
              subst e5
              have h3 : p3.predictedPeriod = p2.predictedPeriod := by
                rw [PD.setBitstream] at e3
                simp only [bind, Except.bind] at e3
                split at e3
                · cases e3
                · injection e3 with e3; rw [← e3]
              have h4 : p4.predictedPeriod = p3.predictedPeriod := by
                rw [PD.autocorrelate] at e4
                split at e4
                · cases e4
                · split at e4
                  · injection e4 with e4; rw [← e4]
                  · simp only [bind, Except.bind] at e4
                    split at e4
                    · cases e4
                    · split at e4
                      · injection e4 with e4; rw [← e4]
                      · split at e4
                        · cases e4
                        · injection e4 with e4; rw [← e4]
              rw [h4, h3]; exact h1
        · injection e with e
          injection e with e5 e6
          rw [← e5]; exact h1
      rw [hmin]
      rcases hpred with g | g
      · left; rw [g]; rfl
      · rw [g]; exact ih
    | @predict p p' x hp e ih =>
      obtain ⟨h1, h2⟩ := C77_predict_rule p p' x e
      have hm : p'.minPeriod = p.minPeriod := by rw [h1]
      have hx : p'.predictedPeriod = x := by rw [h1]
      rw [hm, hx]
      split at h2
      · rcases h2.2 with ⟨i, j, a, b, -, -, -, -, -, hlt, -⟩ | ⟨g, -⟩
        · right; simpa [FloatOps.lt, FloatOps.ofInt] using hlt
        · rw [g]; exact ih
      · rw [h2.1]; exact ih
  have inv := phist_inv h
  obtain ⟨p', x, e⟩ := predictPeriod_total inv
  refine ⟨p', x, e, ?_⟩
  obtain ⟨h1, h2⟩ := C77_predict_rule p p' x e
  split at h2
  · rcases h2.2 with ⟨i, j, a, b, -, -, -, -, -, hlt, -⟩ | ⟨g, -⟩
    · right; simpa [FloatOps.lt, FloatOps.ofInt] using hlt
    · rw [g]; exact key
  · rw [h2.1]; exact key

/-! ## Concrete cases meeting the hypotheses -/

/-- After three pulses at a distance of 16 frames, the prediction is 16 (minimum period 4). -/
example : ((pdRun (List.replicate 3 ([-1, 1, 1] ++ List.replicate 13 (-1))).flatten).toOption.bind
    fun r => r.1.predictPeriod.toOption.map fun q => (q.2, q.1.minPeriod)) = some (16, 4) := by decide +kernel

/-- A pulse train of period 40 (2 of 4 pulses in the window of 128): the report is the third alternative of `C76_estimate`. -/
example : ((pdRun (List.replicate 4 ([-1, 1, 1] ++ List.replicate 37 (-1))).flatten).toOption.map
    fun r => (r.1.fundamental.period, r.1.fundamental.periodicity, r.1.minPeriod, r.1.range)) = some (40, 1, 4, 16) := by decide +kernel

/-- A single loud pulse and a soft one: flagged. -/
example : ((pdRun ([-1, 1, 1] ++ List.replicate 37 (-1) ++ [1/2, 1/2] ++ List.replicate 86 (-1))).toOption.map
    fun r => (r.1.zc.numEdges, r.1.fundamental.periodicity)) = some (2, -1) := by decide +kernel

end Verif
