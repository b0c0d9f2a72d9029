import Verif.Props.Conditioner
import Verif.Props.FastEnv
import Verif.Props.Moving
import Verif.Props.RoundSum
/-!
# C78 (band-limited conditioner), C79 `level_crossfade`, C80 smoothed and RMS envelope followers
-/
namespace Verif
open Rounding Dyn Follow Decibel Cond

namespace Cond

theorem movingSum_id : RoundFilter.movingSum id id = (MovingSum.feed : MovingSum ℚ → ℚ → C (MovingSum ℚ × ℚ)) := rfl

theorem feed_size {fl fa : ℚ → ℚ} {m m' : MovingSum ℚ} {s y : ℚ} (h : RoundFilter.movingSum fl fa m s = .ok (m', y)) :
    m'.size = m.size := by
  unfold RoundFilter.movingSum at h
  simp only [] at h
  cases e1 : m.buff.get (m.size - 1) with
  | error x => rw [e1] at h; cases h
  | ok o =>
    rw [e1, bind_ok] at h
    cases e2 : m.buff.push s with
    | error x => simp only [e2] at h; cases h
    | ok b =>
      simp only [e2, bind_ok] at h
      injection h with h; injection h with h _; rw [← h]

theorem smooth_run (fl fa : ℚ → ℚ) (fenv : FastEnv ℚ) (ma m : MovingSum ℚ) (xs outs : List ℚ)
    (h : runC (RoundFilter.movingSum fl fa) ma (outputs FastEnv.feed fenv xs) = .ok (m, outs)) :
    ∃ e, runC (Smooth.feed fl fa) ⟨fenv, ma⟩ xs = .ok (e, outs.map (fun y => fl (y / fl (ma.size.toNat : ℚ)))) := by
  induction xs generalizing fenv ma m outs with
  | nil =>
    simp only [outputs, runC] at h
    injection h with h; injection h with h1 h2; subst h2
    exact ⟨_, rfl⟩
  | cons x xs ih =>
    simp only [outputs, runC] at h
    cases e1 : RoundFilter.movingSum fl fa ma (fenv.feed x).2 with
    | error z => rw [e1] at h; cases h
    | ok p =>
      obtain ⟨ma', y⟩ := p
      rw [e1, bind_ok] at h
      simp only [] at h
      cases e2 : runC (RoundFilter.movingSum fl fa) ma' (outputs FastEnv.feed (fenv.feed x).1 xs) with
      | error z => rw [e2] at h; cases h
      | ok q =>
        obtain ⟨m', ys⟩ := q
        rw [e2, bind_ok] at h
        simp only [] at h
        injection h with h; injection h with h1 h2; subst h2
        obtain ⟨e, he⟩ := ih _ _ _ _ e2
        refine ⟨e, ?_⟩
        have hs : Smooth.feed fl fa ⟨fenv, ma⟩ x = .ok (⟨(fenv.feed x).1, ma'⟩, fl (y / fl (ma.size.toNat : ℚ))) := by
          unfold Smooth.feed
          simp only []
          rw [e1, bind_ok, ← feed_size e1]
          rfl
        rw [runC, hs, bind_ok]
        simp only []
        rw [he, bind_ok, feed_size e1]
        rfl
end Cond

/-- **C80** (exact arithmetic) The smoothed follower with a hold of `hold ≥ 1` samples never goes wrong, and its output after
sample `k` is the mean of the fast follower's last `hold` outputs (0 before the first). -/
theorem C80_smoothed (div hold : Nat) (h1 : 0 < hold) (h2 : hold ≤ 2 ^ 63) (xs : List ℚ) :
    ∃ e outs, runC (Smooth.feed id id) (Smooth.mk' div hold) xs = .ok (e, outs) ∧ outs.length = xs.length ∧
      ∀ k, k < xs.length → outs[k]? = some (((List.range hold).map fun j : Nat =>
        sig (outputs FastEnv.feed (FastEnv.mk' div hold) xs) ((k : Int) - j)).sum / hold) := by
  obtain ⟨m, outs, e, hl, ho⟩ := C07_feed (K := ℚ) hold h1 h2 (outputs FastEnv.feed (FastEnv.mk' div hold) xs)
  obtain ⟨s, hs⟩ := smooth_run id id _ _ _ _ _ e
  have hsz : (MovingSum.mk' hold : MovingSum ℚ).size.toNat = hold := by
    simp only [MovingSum.mk', BitVec.toNat_ofNat]; omega
  rw [hsz] at hs
  rw [outputs_length] at hl ho
  refine ⟨s, _, hs, by simp [hl], fun k hk => ?_⟩
  rw [List.getElem?_map, ho k hk]
  rfl

/-- **C80** (exact arithmetic) Between 0 and the largest sample, always; and for a constant signal of level `c ≥ 0` the reading
is exactly `c` from sample `hold` on. -/
theorem C80_smoothed_range (div hold : Nat) (hd : 1 ≤ div) (h1 : 0 < hold) (h2 : hold ≤ 2 ^ 63) (xs : List ℚ) (c : ℚ) (hc : 0 ≤ c)
    (hx : ∀ x ∈ xs, x ≤ c) :
    ∃ e outs, runC (Smooth.feed id id) (Smooth.mk' div hold) xs = .ok (e, outs) ∧ (∀ y ∈ outs, 0 ≤ y ∧ y ≤ c) ∧
      ((∀ x ∈ xs, x = c) → ∀ k, k < xs.length → hold ≤ k + 1 → outs[k]? = some c) := by
  obtain ⟨e, outs, he, hl, ho⟩ := C80_smoothed div hold h1 h2 xs
  have hq : (0 : ℚ) < hold := by exact_mod_cast h1
  have peak : ∀ k (hk : k < xs.length), ∃ p, (outputs FastEnv.feed (FastEnv.mk' div hold) xs)[k]? = some p ∧ 0 ≤ p ∧ p ≤ c ∧
      ((∀ x ∈ xs, x = c) → p = c) := by
    intro k hk
    have hs := outputs_getElem? FastEnv.feed (FastEnv.mk' div hold) xs k hk
    have := C46_holds_peaks div hold (xs.take k) xs[k]
    refine ⟨_, hs, this.1, ?_, fun hall => ?_⟩
    · rcases this.2.2.2 with h | h
      · rw [h]; exact hc
      · exact hx _ (by
          rw [List.mem_append, List.mem_singleton] at h
          rcases h with h | h
          · exact List.mem_of_mem_take h
          · rw [h]; exact List.getElem_mem hk)
    · have hm : xs[k] = c := hall _ (List.getElem_mem hk)
      apply le_antisymm
      · rcases this.2.2.2 with h | h
        · rw [h]; exact hc
        · exact hx _ (by
            rw [List.mem_append, List.mem_singleton] at h
            rcases h with h | h
            · exact List.mem_of_mem_take h
            · rw [h]; exact List.getElem_mem hk)
      · have := this.2.2.1 hd
        rw [hm] at this ⊢
        exact this
  have sg : ∀ i : Int, 0 ≤ sig (outputs FastEnv.feed (FastEnv.mk' div hold) xs) i ∧ sig (outputs FastEnv.feed (FastEnv.mk' div hold) xs) i ≤ c ∧
      ((∀ x ∈ xs, x = c) → 0 ≤ i → i < xs.length → sig (outputs FastEnv.feed (FastEnv.mk' div hold) xs) i = c) := by
    intro i
    unfold sig
    by_cases hi : 0 ≤ i ∧ i < xs.length
    · obtain ⟨p, hp, a, b, d⟩ := peak i.toNat (by omega)
      simp only [hi.1, hp, Option.getD_some]
      exact ⟨by simpa using a, by simpa using b, fun h _ _ => by simpa using d h⟩
    · have h0 : (if 0 ≤ i then (outputs FastEnv.feed (FastEnv.mk' div hold : FastEnv ℚ) xs)[i.toNat]?.getD 0 else 0) = 0 := by
        split_ifs with h
        · rw [List.getElem?_eq_none (by rw [outputs_length]; omega)]; rfl
        · rfl
      rw [h0]
      exact ⟨le_rfl, hc, fun _ a b => absurd ⟨a, b⟩ hi⟩
  refine ⟨e, outs, he, fun y hy => ?_, fun hall k hk hh => ?_⟩
  · obtain ⟨k, hk, hy⟩ := List.mem_iff_getElem.1 hy
    have hk' : k < xs.length := by rw [← hl]; exact hk
    have := ho k hk'
    rw [List.getElem?_eq_getElem hk, hy] at this
    injection this with this
    rw [this]
    constructor
    · exact div_nonneg (List.sum_nonneg (by
        intro z hz; obtain ⟨j, -, rfl⟩ := List.mem_map.1 hz; exact (sg _).1)) hq.le
    · rw [div_le_iff₀ hq]
      have := List.sum_le_card_nsmul ((List.range hold).map fun j : Nat =>
        sig (outputs FastEnv.feed (FastEnv.mk' div hold) xs) ((k : Int) - j)) c (by
          intro z hz; obtain ⟨j, -, rfl⟩ := List.mem_map.1 hz; exact (sg _).2.1)
      rw [List.length_map, List.length_range, nsmul_eq_mul] at this
      linarith
  · rw [ho k hk]
    have : ((List.range hold).map fun j : Nat =>
        sig (outputs FastEnv.feed (FastEnv.mk' div hold) xs) ((k : Int) - j)) = List.replicate hold c := by
      rw [List.eq_replicate_iff]
      refine ⟨by simp, fun z hz => ?_⟩
      obtain ⟨j, hj, rfl⟩ := List.mem_map.1 hz
      have := List.mem_range.1 hj
      exact (sg _).2.2 hall (by omega) (by omega)
    rw [this, List.sum_replicate, nsmul_eq_mul]
    congr 1
    field_simp

/-- A concrete case: hold of 2 samples, two divisions. -/
example : outputs FastEnv.feed (FastEnv.mk' 2 2 : FastEnv ℚ) [4, 1, 0, 0] = [4, 4, 4, 4] := by decide +kernel

/-! ## RMS level -/

namespace Cond
theorem rmsThreshold_eq : rmsThreshold fl32 fl64 = .ok (fl32 (1 / 1000000)) := by
  unfold rmsThreshold toAmp
  rw [fl32_lawful.fix (-120) ⟨-120, 0, by norm_num, by norm_num, by norm_num⟩]
  exact (C61_db2a_saturates (-120)).2 le_rfl

theorem rmsT : (99 / 100000000 : ℚ) ≤ fl32 (1 / 1000000) ∧ fl32 (1 / 1000000) ≤ 101 / 100000000 := by
  have h2 : |fl32 (1 / 1000000) - 1 / 1000000| ≤ 1 / 100000000 := by
    refine (fl32_lawful.err _).trans (max_le (by norm_num) ?_)
    rw [show (-149 : ℤ) = -((149 : ℕ) : ℤ) by norm_num, zpow_neg, zpow_natCast]; norm_num
  have := abs_le.1 h2
  constructor <;> linarith [this.1, this.2]

theorem rmsLevel_eq (e : ℚ) : rmsLevel fl32 fl64 e =
    (a2db fl32 fl64 (if e < fl32 (1 / 1000000) then 0 else e) >>= fun d => Except.ok (fl64 (d / 2))) := by
  unfold rmsLevel
  rw [rmsThreshold_eq, bind_ok]
  rfl

theorem half_mono {v w : ℚ} (h : v ≤ w) : fl64 (v / 2) ≤ fl64 (w / 2) := fl64_lawful.mono _ _ (by linarith)
end Cond

/-- **C80** The level read from the smoothed square is defined for every float (also the slightly negative ones a rounded moving
sum can produce), lies in [-60.5, 60.5] dB, is -60.5 dB below 10^-6, never decreases with `e`, and is within half a bound of C61
of `10 log10 e`, the level of the root mean square `sqrt e`. -/
theorem C80_rms_level (e : ℚ) (he : IsFloat e) : ∃ v, rmsLevel fl32 fl64 e = .ok v ∧ -121 / 2 ≤ v ∧ v ≤ 121 / 2 ∧
    (e < 99 / 100000000 → v = -121 / 2) ∧
    (∀ e' v', IsFloat e' → e ≤ e' → rmsLevel fl32 fl64 e' = .ok v' → v ≤ v') ∧
    (1 / 8 ≤ e → e ≤ 8 → |(v : ℝ) - 20 * Real.logb 10 (Real.sqrt e)| ≤ 1 / 19000) ∧
    (1 / 1024 ≤ e → e ≤ 1024 → |(v : ℝ) - 20 * Real.logb 10 (Real.sqrt e)| ≤ 11 / 1000) ∧
    (101 / 100000000 ≤ e → e < 1048576 → |(v : ℝ) - 20 * Real.logb 10 (Real.sqrt e)| ≤ 27 / 100) := by
  have rA : ∀ x : ℚ, IsFloat x → IsFloat (if x < fl32 (1 / 1000000) then 0 else x) := by
    intro x hx; split_ifs
    · exact isFloat_zero
    · exact hx
  have nn : ∀ x : ℚ, 0 ≤ (if x < fl32 (1 / 1000000) then 0 else x) := by
    intro x; split_ifs with h
    · exact le_rfl
    · have := rmsT.1; push Not at h; exact le_trans (le_trans (by norm_num) this) h
  obtain ⟨d, ed, d1, d2, -, -⟩ := (C61_a2db_total fl32_lawful fl64_lawful _ (rA e he)).1 (nn e)
  have r121 : Rep 53 (-1074) (121 / 2) := ⟨121, -1, by norm_num, by norm_num, by norm_num⟩
  have r121' : Rep 53 (-1074) (-121 / 2) := ⟨-121, -1, by norm_num, by norm_num, by norm_num⟩
  have hv : rmsLevel fl32 fl64 e = .ok (fl64 (d / 2)) := by rw [rmsLevel_eq, ed, bind_ok]
  have acc : ∀ T : ℝ, fl32 (1 / 1000000) ≤ e → |(d : ℝ) - 20 * Real.logb 10 e| ≤ T →
      |((fl64 (d / 2) : ℚ) : ℝ) - 20 * Real.logb 10 (Real.sqrt e)| ≤ T / 2 + 1 / 10 ^ 8 := by
    intro T ht hT
    have e0 : (0 : ℝ) ≤ e := by
      have : (0 : ℚ) ≤ e := le_trans (le_trans (by norm_num) rmsT.1) ht
      exact_mod_cast this
    have hsq : 20 * Real.logb 10 (Real.sqrt e) = 20 * Real.logb 10 e / 2 := by
      rw [Real.sqrt_eq_rpow, Real.logb_rpow_eq_mul_logb_of_pos]
      · ring
      · have : (0 : ℚ) < e := lt_of_lt_of_le (lt_of_lt_of_le (by norm_num) rmsT.1) ht
        exact_mod_cast this
    have er := err64 (d / 2)
    have ad : |d / 2| ≤ 61 := abs_le.2 ⟨by linarith, by linarith⟩
    have er' : |fl64 (d / 2) - d / 2| ≤ 1 / 10 ^ 8 := er.trans (by norm_num at *; linarith)
    have er2 := (Rat.cast_le (K := ℝ)).mpr er'
    push_cast at er2
    rw [hsq]
    rw [abs_le] at *
    constructor <;> linarith [er2.1, er2.2, hT.1, hT.2]
  have hT := C61_a2db_accuracy fl32_lawful fl64_lawful _ d (rA e he) ed
  have hbig : ∀ {b : ℚ}, 101 / 100000000 ≤ b → b ≤ e → fl32 (1 / 1000000) ≤ e ∧ (if e < fl32 (1 / 1000000) then 0 else e) = e := by
    intro b hb h
    have : fl32 (1 / 1000000) ≤ e := rmsT.2.trans (hb.trans h)
    exact ⟨this, if_neg (not_lt.2 this)⟩
  refine ⟨_, hv, fl64_lawful.ge_of_rep r121' (by linarith), fl64_lawful.le_of_rep r121 (by linarith), fun h => ?_, ?_, ?_, ?_, ?_⟩
  · have : (if e < fl32 (1 / 1000000) then 0 else e) = 0 := if_pos (lt_of_lt_of_le h rmsT.1)
    rw [this, (C61_a2db_saturates (fl := fl32) (fd := fl64) fl32_lawful 0).2 le_rfl (by norm_num)] at ed
    injection ed with ed
    rw [← ed]
    exact fl64_lawful.fix _ r121'
  · intro e' v' he' hee hv'
    obtain ⟨d', ed', -⟩ := (C61_a2db_total fl32_lawful fl64_lawful _ (rA e' he')).1 (nn e')
    rw [rmsLevel_eq, ed', bind_ok] at hv'
    injection hv' with hv'
    rw [← hv']
    refine half_mono (C61_a2db_mono fl32_lawful fl64_lawful _ _ d d' (rA e he) (rA e' he') (nn e) ?_ ed ed')
    split_ifs with h1 h2 h2
    · exact le_rfl
    · exact le_trans (nn e') (by rw [if_neg h2])
    · exact absurd (lt_of_le_of_lt hee h2) h1
    · exact hee
  · intro h1 h2
    obtain ⟨a, b⟩ := hbig (by norm_num) h1
    rw [b] at hT
    exact (acc _ a (hT.1 h1 h2)).trans (by norm_num)
  · intro h1 h2
    obtain ⟨a, b⟩ := hbig (by norm_num) h1
    rw [b] at hT
    exact (acc _ a (hT.2.1 h1 h2)).trans (by norm_num)
  · intro h1 h2
    obtain ⟨a, b⟩ := hbig le_rfl h1
    rw [b] at hT
    exact (acc _ a (hT.2.2 (lt_of_lt_of_le (by norm_num) h1) h2)).trans (by norm_num)

namespace Cond
theorem rms_run (fa : ℚ → ℚ) (e e' : Smooth) (xs outs : List ℚ)
    (h : runC (Smooth.feed fl32 fa) e (xs.map fun s => fl32 (s * s)) = .ok (e', outs)) (ho : ∀ y ∈ outs, IsFloat y) :
    ∃ e'' vs, runC (rmsFeed fl32 fl64 fa) e xs = .ok (e'', vs) ∧ List.Forall₂ (fun p v => rmsLevel fl32 fl64 p = .ok v) outs vs := by
  induction xs generalizing e outs with
  | nil =>
    simp only [List.map_nil, runC] at h
    injection h with h; injection h with h1 h2; subst h2
    exact ⟨_, [], rfl, .nil⟩
  | cons x xs ih =>
    simp only [List.map_cons, runC] at h
    cases e1 : e.feed fl32 fa (fl32 (x * x)) with
    | error z => rw [e1] at h; cases h
    | ok p =>
      obtain ⟨e1', y⟩ := p
      rw [e1, bind_ok] at h
      simp only [] at h
      cases e2 : runC (Smooth.feed fl32 fa) e1' (xs.map fun s => fl32 (s * s)) with
      | error z => rw [e2] at h; cases h
      | ok q =>
        obtain ⟨e2', ys⟩ := q
        rw [e2, bind_ok] at h
        simp only [] at h
        injection h with h; injection h with h1 h2; subst h2 h1
        obtain ⟨e'', vs, hv, hf⟩ := ih _ _ e2 (fun y hy => ho y (by simp [hy]))
        obtain ⟨v, ev, -⟩ := C80_rms_level y (ho y (by simp))
        refine ⟨e'', v :: vs, ?_, .cons ev hf⟩
        have hs : rmsFeed fl32 fl64 fa e x = .ok (e1', v) := by
          unfold rmsFeed
          rw [e1, bind_ok]
          simp only []
          rw [ev, bind_ok]
          rfl
        rw [runC, hs, bind_ok]
        simp only []
        rw [hv, bind_ok]
        rfl
end Cond

/-- **C80** (rounding included; `fa` is whatever rounding the accumulator of the moving sum has) The RMS follower never goes wrong,
for any hold of at least one sample and any signal, and every reading is in [-60.5, 60.5] dB: it is the level of the smoothed
follower's output for the squared signal. -/
theorem C80_rms_total (fa : ℚ → ℚ) (div hold : Nat) (h1 : 0 < hold) (h2 : hold ≤ 2 ^ 63) (xs : List ℚ) :
    ∃ e outs e' levels,
      runC (Smooth.feed fl32 fa) (Smooth.mk' div hold) (xs.map fun s => fl32 (s * s)) = .ok (e, outs) ∧
      runC (rmsFeed fl32 fl64 fa) (Smooth.mk' div hold) xs = .ok (e', levels) ∧
      List.Forall₂ (fun p v => rmsLevel fl32 fl64 p = .ok v) outs levels ∧ ∀ v ∈ levels, -121 / 2 ≤ v ∧ v ≤ 121 / 2 := by
  obtain ⟨m, em⟩ := RoundFilter.movingSum_refines hold fl32 fa h1 h2
    (outputs FastEnv.feed (FastEnv.mk' div hold) (xs.map fun s => fl32 (s * s)))
  obtain ⟨e, he⟩ := smooth_run fl32 fa _ _ _ _ _ em.1
  have hf : ∀ y ∈ (outputs (RoundFilter.accStep hold fl32 fa) (List.replicate hold 0, 0)
      (outputs FastEnv.feed (FastEnv.mk' div hold) (xs.map fun s => fl32 (s * s)))).map
        (fun y => fl32 (y / fl32 ((MovingSum.mk' hold : MovingSum ℚ).size.toNat : ℚ))), IsFloat y := by
    intro y hy
    obtain ⟨z, -, rfl⟩ := List.mem_map.1 hy
    exact fl32_lawful.rep _
  obtain ⟨e', vs, hv, hF⟩ := rms_run fa _ _ _ _ he hf
  refine ⟨e, _, e', vs, he, hv, hF, fun v hv' => ?_⟩
  have : ∀ {ps vs : List ℚ}, List.Forall₂ (fun p v => rmsLevel fl32 fl64 p = .ok v) ps vs → (∀ p ∈ ps, IsFloat p) →
      ∀ v ∈ vs, -121 / 2 ≤ v ∧ v ≤ 121 / 2 := by
    intro ps vs h
    induction h with
    | nil => simp
    | @cons p0 _ _ _ ha _ ih =>
      intro hp v hv
      rcases List.mem_cons.1 hv with rfl | hv
      · obtain ⟨w, ew, w1, w2, -⟩ := C80_rms_level p0 (hp p0 (by simp))
        rw [ha] at ew; injection ew with ew; rw [ew]; exact ⟨w1, w2⟩
      · exact ih (fun p h => hp p (by simp [h])) v hv
  exact this hF hf v hv'

/-! ## C79: `level_crossfade` -/

namespace Cond
theorem toAmp_ge (d v : ℚ) (e : toAmp fl32 fl64 d = .ok v) : 1 / 2 ^ 20 ≤ v := by
  have low : fl32 (1 / 1000000) ≤ v := by
    rcases lt_or_ge (fl32 d) (-120) with h | h
    · unfold toAmp at e
      rw [(C61_db2a_saturates (fl32 d)).2 h.le] at e
      injection e with e; rw [e]
    · exact C61_db2a_mono fl32_lawful fl64_lawful (-120) (fl32 d) _ v ⟨-120, 0, by norm_num, by norm_num, by norm_num⟩
        (fl32_lawful.rep _) h ((C61_db2a_saturates (-120)).2 le_rfl) e
  exact le_trans (fl32_lawful.ge_of_rep ⟨1, -20, by norm_num, by norm_num, by norm_num⟩ (by norm_num)) low

/-- `1 - x` is exact in `double` for the `float`s `x` in [2^-20, 1]. -/
theorem one_sub_exact {x : ℚ} (hx : IsFloat x) (h0 : 1 / 2 ^ 20 ≤ x) (h1 : x ≤ 1) : fl64 (1 - x) = 1 - x := by
  apply fl64_lawful.fix
  obtain ⟨z, hz⟩ := rep_grid (by norm_num) hx (j := -20) (by
    rw [show (-20 : ℤ) = -((20 : ℕ) : ℤ) by norm_num, zpow_neg, zpow_natCast]; norm_num at h0 ⊢; linarith)
  have e43 : (2 : ℚ) ^ (-20 + 1 - ((24 : ℕ) : ℤ)) = 1 / 2 ^ 43 := by
    rw [show (-20 + 1 - ((24 : ℕ) : ℤ)) = -((43 : ℕ) : ℤ) by norm_num, zpow_neg, zpow_natCast]; norm_num
  rw [e43] at hz
  have z1 : (z : ℚ) ≤ 2 ^ 43 := by
    have : (z : ℚ) = x * 2 ^ 43 := by rw [hz]; ring
    rw [this]; linarith
  have z0 : (0 : ℚ) ≤ z := by
    have : (z : ℚ) = x * 2 ^ 43 := by rw [hz]; ring
    rw [this]
    have : 0 ≤ x := le_trans (by norm_num) h0
    positivity
  have z1' : z ≤ 2 ^ 43 := by exact_mod_cast z1
  have z0' : 0 ≤ z := by exact_mod_cast z0
  refine ⟨2 ^ 43 - z, -43, ?_, by norm_num, ?_⟩
  · rw [abs_of_nonneg (by omega)]; norm_num; omega
  · rw [hz, show (-43 : ℤ) = -((43 : ℕ) : ℤ) by norm_num, zpow_neg, zpow_natCast]
    push_cast
    norm_num
    ring
end Cond

/-- **C79** At and above the pivot level the crossfader returns `a`, exactly. -/
theorem C79_above (pivot a b ctrl : ℚ) (h : pivot ≤ ctrl) : crossfade fl32 fl64 pivot a b ctrl = .ok a := by
  unfold crossfade
  rw [if_neg (not_lt.2 h)]
  rfl

/-- **C79** Below the pivot the output is `x a + (1 - x) b` up to rounding, with `x` in (0, 1]: it stays between the two inputs up
to 2^-22 of the larger one; and `x` is 10^((ctrl - pivot)/20) within 30 parts in a million down to 120 dB below the pivot. -/
theorem C79_below (pivot a b ctrl : ℚ) (h : ctrl < pivot) :
    ∃ x y, crossfade fl32 fl64 pivot a b ctrl = .ok y ∧ 0 < x ∧ x ≤ 1 ∧
      |y - (x * a + (1 - x) * b)| ≤ max |a| |b| / 2 ^ 22 + 1 / 2 ^ 140 ∧
      min a b - (max |a| |b| / 2 ^ 22 + 1 / 2 ^ 140) ≤ y ∧ y ≤ max a b + (max |a| |b| / 2 ^ 22 + 1 / 2 ^ 140) ∧
      (pivot - 120 ≤ ctrl → |(x : ℝ) - (10 : ℝ) ^ (((ctrl : ℝ) - pivot) / 20)| ≤ 30 / 10 ^ 6 * (10 : ℝ) ^ (((ctrl : ℝ) - pivot) / 20)) := by
  have hd : fl64 (ctrl - pivot) ≤ 0 := fnonpos fl64_lawful (by norm_num) (by linarith)
  obtain ⟨x, ex, xr, x0, x1⟩ := toAmp_total (fl64 (ctrl - pivot))
  replace x1 := x1 hd
  have xg := toAmp_ge _ _ ex
  have hx := one_sub_exact xr xg x1
  have ey : crossfade fl32 fl64 pivot a b ctrl = .ok (fl32 (fl64 (fl32 (x * a) + fl64 ((1 - x) * b)))) := by
    unfold crossfade
    rw [if_pos h, ex, bind_ok, hx]
    rfl
  set M := max |a| |b| with hM
  have M0 : 0 ≤ M := le_trans (abs_nonneg a) (le_max_left _ _)
  have ha : |a| ≤ M := le_max_left _ _
  have hb : |b| ≤ M := le_max_right _ _
  have er : |fl32 (fl64 (fl32 (x * a) + fl64 ((1 - x) * b))) - (x * a + (1 - x) * b)| ≤ M / 2 ^ 22 + 1 / 2 ^ 140 := by
    have t32 : (2 : ℚ) ^ (-149 : ℤ) / 2 ≤ 1 / 2 ^ 145 := by
      rw [show (-149 : ℤ) = -((149 : ℕ) : ℤ) by norm_num, zpow_neg, zpow_natCast]; norm_num
    have t64 : (2 : ℚ) ^ (-1074 : ℤ) / 2 ≤ 1 / 2 ^ 145 := by
      have : (2 : ℚ) ^ (-1074 : ℤ) ≤ (2 : ℚ) ^ (-149 : ℤ) := zpow_le_zpow_right₀ (by norm_num) (by norm_num)
      exact (div_le_div_of_nonneg_right this (by norm_num)).trans t32
    have E32 : ∀ z : ℚ, |fl32 z - z| ≤ |z| / 2 ^ 24 + 1 / 2 ^ 145 := fun z => by
      have : 0 ≤ |z| / 2 ^ 24 := by positivity
      have p : (0 : ℚ) ≤ 1 / 2 ^ 145 := by positivity
      exact (fl32_lawful.err z).trans (max_le (by linarith) (by linarith))
    have E64 : ∀ z : ℚ, |fl64 z - z| ≤ |z| / 2 ^ 53 + 1 / 2 ^ 145 := fun z => by
      have : 0 ≤ |z| / 2 ^ 53 := by positivity
      have p : (0 : ℚ) ≤ 1 / 2 ^ 145 := by positivity
      exact (fl64_lawful.err z).trans (max_le (by linarith) (by linarith))
    have p1 : |x * a| ≤ x * M := by rw [abs_mul, abs_of_pos x0]; exact mul_le_mul_of_nonneg_left ha x0.le
    have p2 : |(1 - x) * b| ≤ (1 - x) * M := by
      rw [abs_mul, abs_of_nonneg (by linarith)]; exact mul_le_mul_of_nonneg_left hb (by linarith)
    have e1 := E32 (x * a)
    have e2 := E64 ((1 - x) * b)
    have e3 := E64 (fl32 (x * a) + fl64 ((1 - x) * b))
    have e4 := E32 (fl64 (fl32 (x * a) + fl64 ((1 - x) * b)))
    generalize fl32 (fl64 (fl32 (x * a) + fl64 ((1 - x) * b))) = y at *
    generalize fl64 (fl32 (x * a) + fl64 ((1 - x) * b)) = w at *
    generalize fl64 ((1 - x) * b) = v at *
    generalize fl32 (x * a) = u at *
    have pm : x * M + (1 - x) * M = M := by ring
    have pm0 : 0 ≤ x * M := by positivity
    have pm1 : 0 ≤ (1 - x) * M := mul_nonneg (by linarith) M0
    have tt : (0 : ℚ) ≤ 1 / 2 ^ 145 := by positivity
    have tk : (32 : ℚ) * (1 / 2 ^ 145) = 1 / 2 ^ 140 := by norm_num
    rw [← tk]
    generalize (1 : ℚ) / 2 ^ 145 = t at *
    generalize x * M = A at *
    generalize (1 - x) * M = B at *
    generalize x * a = X at *
    generalize (1 - x) * b = Y at *
    clear ey ex hx hM
    -- u
    have u1 : |u - X| ≤ A / 2 ^ 24 + t := e1.trans (by linarith [div_le_div_of_nonneg_right p1 (by norm_num : (0 : ℚ) ≤ 2 ^ 24)])
    have v1 : |v - Y| ≤ B / 2 ^ 53 + t := e2.trans (by linarith [div_le_div_of_nonneg_right p2 (by norm_num : (0 : ℚ) ≤ 2 ^ 53)])
    have s1 : |u + v| ≤ 2 * M + 2 * t := by
      rw [abs_le] at *; norm_num at *; constructor <;> linarith [u1.1, u1.2, v1.1, v1.2, p1.1, p1.2, p2.1, p2.2]
    have w1 : |w - (u + v)| ≤ 2 * M / 2 ^ 53 + 2 * t := e3.trans (by norm_num at *; linarith)
    have w2 : |w| ≤ M * (1 + 1 / 2 ^ 22) + 8 * t := by
      rw [abs_le] at *; norm_num at *; constructor <;> linarith [u1.1, u1.2, v1.1, v1.2, p1.1, p1.2, p2.1, p2.2, w1.1, w1.2]
    have y1 : |y - w| ≤ M * (1 + 1 / 2 ^ 22) / 2 ^ 24 + 2 * t := e4.trans (by norm_num at *; linarith)
    clear e1 e2 e3 e4 s1 w2
    rw [abs_le] at *
    norm_num at *
    constructor <;> linarith [u1.1, u1.2, v1.1, v1.2, w1.1, w1.2, y1.1, y1.2]
  refine ⟨x, _, ey, x0, x1, er, ?_, ?_, fun h120 => ?_⟩
  · have : min a b ≤ x * a + (1 - x) * b := by
      have h1 : min a b ≤ a := min_le_left _ _
      have h2 : min a b ≤ b := min_le_right _ _
      nlinarith
    linarith [(abs_le.1 er).1]
  · have : x * a + (1 - x) * b ≤ max a b := by
      have h1 : a ≤ max a b := le_max_left _ _
      have h2 : b ≤ max a b := le_max_right _ _
      nlinarith
    linarith [(abs_le.1 er).2]
  · set d := fl64 (ctrl - pivot) with hdd
    have d1 : -120 ≤ d := fl64_lawful.ge_of_rep ⟨-120, 0, by norm_num, by norm_num, by norm_num⟩ (by linarith)
    have f1 : -120 ≤ fl32 d := fl32_lawful.ge_of_rep ⟨-120, 0, by norm_num, by norm_num, by norm_num⟩ d1
    have f2 : fl32 d ≤ 0 := fnonpos fl32_lawful (by norm_num) hd
    have hp := C61_db2a_accuracy fl32_lawful fl64_lawful _ x (fl32_lawful.rep _) f1 (f2.trans (by norm_num)) ex
    have df : |fl32 d - (ctrl - pivot)| ≤ 1 / 10 ^ 5 := by
      have e1 := err32 d
      have e2 := err64 (ctrl - pivot)
      rw [abs_of_nonpos hd] at e1
      rw [abs_of_nonpos (by linarith : ctrl - pivot ≤ 0)] at e2
      rw [← hdd] at e2
      generalize fl32 d = g at *
      clear_value d
      rw [abs_le] at *
      norm_num at *
      constructor <;> linarith [e1.1, e1.2, e2.1, e2.2]
    have df' : |((fl32 d : ℚ) : ℝ) - ((ctrl : ℝ) - pivot)| ≤ 1 / 10 ^ 5 := by
      have := (Rat.cast_le (K := ℝ)).mpr df
      push_cast at this
      exact this
    have I0 : 0 < (10 : ℝ) ^ (((ctrl : ℝ) - pivot) / 20) := Real.rpow_pos_of_pos (by norm_num) _
    have lg : 20 * Real.logb 10 ((10 : ℝ) ^ (((ctrl : ℝ) - pivot) / 20)) = (ctrl : ℝ) - pivot := by
      rw [Real.logb_rpow (by norm_num) (by norm_num)]; field_simp
    have hx2 := Decibel.amp_of_level (y := ((fl32 d : ℚ) : ℝ)) (ε := 1 / 10 ^ 5) I0 (by rw [lg]; exact df')
    have ex2 : Real.exp (0.1152 * (1 / 10 ^ 5)) ≤ 1 + 2 / 10 ^ 6 := by
      have := Real.abs_exp_sub_one_sub_id_le (x := 0.1152 * (1 / 10 ^ 5)) (by norm_num)
      have := (abs_le.1 this).2
      norm_num at this ⊢
      linarith
    generalize (10 : ℝ) ^ (((ctrl : ℝ) - pivot) / 20) = I at *
    have hx3 : |(10 : ℝ) ^ (((fl32 d : ℚ) : ℝ) / 20) - I| ≤ I * (2 / 10 ^ 6) :=
      hx2.trans (mul_le_mul_of_nonneg_left (by linarith) I0.le)
    generalize (10 : ℝ) ^ (((fl32 d : ℚ) : ℝ) / 20) = P at *
    rw [abs_le] at *
    norm_num at *
    constructor <;> linarith [hp.1, hp.2, hx3.1, hx3.2]

/-! ## C78: `bl_signal_conditioner` -/

namespace Cond
theorem bl_run {cfg : Config} {sps : Nat} (h : cfg.Ok sps) (B : ℚ) (hB : IsFloat B) (c : BlSigCond) (i : CInv c.base)
    (hm : c.base.makeup = cfg.compGain)
    (a1 : IsFloat c.a1 ∧ 0 < c.a1 ∧ c.a1 < 1) (a2 : IsFloat c.a2 ∧ 0 < c.a2 ∧ c.a2 < 1) (y1 : IsFloat c.y1 ∧ -B ≤ c.y1 ∧ c.y1 ≤ B)
    (y2 : IsFloat c.y2 ∧ -B ≤ c.y2 ∧ c.y2 ≤ B) (xs : List ℚ) (hx : ∀ x ∈ xs, IsFloat x ∧ |x| ≤ B) :
    ∃ c' b' ys, runC (BlSigCond.feed fl32 fl64) c xs = .ok (c', ys) ∧ (∀ y ∈ ys, |y| ≤ fl32 (2 * B * cfg.compGain)) ∧
      runC (SigCond.feed fl32 fl64) c.base (List.zipWith (fun p q => fl32 (p - q)) (outputs (onePole fl32 c.a1) c.y1 xs)
        (outputs (onePole fl32 c.a2) c.y2 (outputs (onePole fl32 c.a1) c.y1 xs))) = .ok (b', ys) := by
  induction xs generalizing c with
  | nil => exact ⟨c, c.base, [], rfl, by simp, rfl⟩
  | cons x xs ih =>
    have hx0 := hx x (by simp)
    have hxb := abs_le.1 hx0.2
    have B0 : 0 ≤ B := le_trans (abs_nonneg x) hx0.2
    have step : ∀ (a y s : ℚ), (IsFloat a ∧ 0 < a ∧ a < 1) → (IsFloat y ∧ -B ≤ y ∧ y ≤ B) → (IsFloat s ∧ -B ≤ s ∧ s ≤ B) →
        IsFloat (onePole fl32 a y s).1 ∧ -B ≤ (onePole fl32 a y s).1 ∧ (onePole fl32 a y s).1 ≤ B := by
      intro a y s ha hy hs
      have := (C56_hull a ha.1 ha.2.1.le ha.2.2 y (-B) B hy.1 hy.2.1 hy.2.2 [s] (by simpa using hs)).2
      exact ⟨fl32_lawful.rep _, this _ (by simp [outputs, onePole])⟩
    have n1 := step c.a1 c.y1 x a1 y1 ⟨hx0.1, hxb.1, hxb.2⟩
    have n2 := step c.a2 c.y2 _ a2 y2 n1
    set p := (onePole fl32 c.a1 c.y1 x).1 with hp
    set q := (onePole fl32 c.a2 c.y2 p).1 with hq
    have r2 : IsFloat (2 * B) := by
      obtain ⟨z, k, h1, h2, h3⟩ := hB
      exact ⟨z, k + 1, h1, by omega, by rw [h3, zpow_add_one₀ (by norm_num)]; ring⟩
    have sb : |fl32 (p - q)| ≤ 2 * B := fl32_lawful.abs_le_of_rep r2 (abs_le.2 ⟨by linarith, by linarith⟩)
    obtain ⟨b1, lev, amp, e, i1, hc1, hc2, -, -, -, -, -, -, -, -, har, ha0, ha1⟩ := feed_ok i (fl32_lawful.rep (p - q))
    rw [hm] at e hc2
    obtain ⟨c', b', ys, er, hb, eb⟩ := ih { c with y1 := p, y2 := q, base := b1 } i1 hc2 a1 a2 n1 n2 (fun z hz => hx z (by simp [hz]))
    have ef : c.feed fl32 fl64 x = .ok ({ c with y1 := p, y2 := q, base := b1 },
        fl32 (fl32 (fl32 (p - q) * b1.gateEnv.y) * fl32 (amp * cfg.compGain))) := by
      unfold BlSigCond.feed
      show ((c.base.feed fl32 fl64 (fl32 (p - q))) >>= _) = _
      rw [e, bind_ok]
      rfl
    refine ⟨c', b', _ :: ys, by rw [runC, ef, bind_ok]; simp only []; rw [er, bind_ok]; rfl, ?_, ?_⟩
    · intro y hy
      rcases List.mem_cons.1 hy with rfl | hy
      · have m0 := h.gain0
        have g0 : 0 ≤ fl32 (amp * cfg.compGain) := fl32_lawful.nonneg (by positivity)
        have g1 : fl32 (amp * cfg.compGain) ≤ cfg.compGain := fl32_lawful.le_of_rep h.gain (mul_le_of_le_one_left m0 ha1)
        have hs1 : |fl32 (fl32 (p - q) * b1.gateEnv.y)| ≤ 2 * B := by
          refine fl32_lawful.abs_le_of_rep r2 ?_
          rw [abs_mul, abs_of_nonneg i1.gy0]
          exact (mul_le_of_le_one_right (abs_nonneg _) i1.gy1).trans sb
        have : |fl32 (fl32 (p - q) * b1.gateEnv.y) * fl32 (amp * cfg.compGain)| ≤ 2 * B * cfg.compGain := by
          rw [abs_mul, abs_of_nonneg g0]
          exact mul_le_mul hs1 g1 g0 (by linarith)
        rw [abs_le] at this ⊢
        exact ⟨by rw [← fl32_lawful.neg]; exact fl32_lawful.mono _ _ this.1, fl32_lawful.mono _ _ this.2⟩
      · exact hb y hy
    · show runC (SigCond.feed fl32 fl64) c.base (fl32 (p - q) :: _) = _
      rw [runC, e, bind_ok]
      show (runC (SigCond.feed fl32 fl64) b1 (List.zipWith (fun p q => fl32 (p - q)) (outputs (onePole fl32 c.a1) p xs)
        (outputs (onePole fl32 c.a2) q (outputs (onePole fl32 c.a1) p xs))) >>= _) = _
      simp only [] at eb
      rw [eb, bind_ok]
      rfl
end Cond

/-- **C78** The band-limited conditioner, for filter coefficients from cut-offs up to 0.2538 of the sampling rate: every call
succeeds; for a signal within [-B, B] the outputs are at most `2 B` times the make-up gain; and the outputs are those of the plain
conditioner fed with the difference of the two low-passed signals. -/
theorem C78_band_limited (cfg : Config) (sps : Nat) (h : cfg.Ok sps) (x1 x2 : ℚ) (l1 : x1 ≤ 0) (l1' : -1595 / 1000 ≤ x1) (l2 : x2 ≤ 0)
    (l2' : -1595 / 1000 ≤ x2) (B : ℚ) (hB : IsFloat B) (B0 : 0 ≤ B) (xs : List ℚ) (hx : ∀ x ∈ xs, IsFloat x ∧ |x| ≤ B) :
    ∃ c0 c b0 b ys, BlSigCond.mk' fl32 fl64 cfg x1 x2 sps = .ok c0 ∧ SigCond.mk' fl32 fl64 cfg sps = .ok b0 ∧
      runC (BlSigCond.feed fl32 fl64) c0 xs = .ok (c, ys) ∧ (∀ y ∈ ys, |y| ≤ fl32 (2 * B * cfg.compGain)) ∧
      (let low := outputs (onePole fl32 (onePoleCoef fl32 fl64 x1)) 0 xs
       let lower := outputs (onePole fl32 (onePoleCoef fl32 fl64 x2)) 0 low
       runC (SigCond.feed fl32 fl64) b0 (List.zipWith (fun p q => fl32 (p - q)) low lower) = .ok (b, ys)) := by
  obtain ⟨b0, e0, i, -, hm, -⟩ := mk_ok h
  have a1 := C56_cutoff_partial x1 l1 l1'
  have a2 := C56_cutoff_partial x2 l2 l2'
  obtain ⟨c', b', ys, er, hb, eb⟩ := bl_run h B hB
    { y1 := 0, a1 := onePoleCoef fl32 fl64 x1, y2 := 0, a2 := onePoleCoef fl32 fl64 x2, base := b0 } i hm a1 a2
    ⟨isFloat_zero, by linarith, B0⟩ ⟨isFloat_zero, by linarith, B0⟩ xs hx
  refine ⟨_, c', b0, b', ys, by unfold BlSigCond.mk'; rw [e0, bind_ok]; rfl, e0, er, hb, eb⟩

/-- A configuration meeting the hypotheses: the defaults of the code at 44100 samples per second. -/
example : Config.Ok { envRelease := 50 / 1000, compThreshold := -27, compSlope := 1 / 4, compGain := 10, gateOnset := -33
                      gateRelease := -45, gateReleaseTime := 10 / 1000 } 44100 :=
  ⟨by norm_num, by norm_num, by norm_num, by norm_num, by norm_num, ⟨10, 0, by norm_num, by norm_num, by norm_num⟩, by norm_num⟩

/-- Reachable states exist after any history, here a sample, a threshold change and another sample. -/
example (cfg : Config) (sps : Nat) (h : cfg.Ok sps) : ∃ c, Reach cfg sps c := by
  have ho : ∀ o ∈ [SigCond.Op.feed (1 / 2), .onsetDb (-20), .feed (-1)], SigCond.Op.Float o := by
    intro o ho
    simp only [List.mem_cons, List.not_mem_nil, or_false] at ho
    rcases ho with rfl | rfl | rfl
    · exact ⟨1, -1, by norm_num, by norm_num, by norm_num⟩
    · trivial
    · exact ⟨-1, 0, by norm_num, by norm_num, by norm_num⟩
  obtain ⟨c0, c, ys, e0, e⟩ := C78_total cfg sps h _ ho
  exact ⟨c, c0, _, ys, ho, e0, e⟩

/-- Crossfading 10 dB below the pivot. -/
example : (-20 : ℚ) < -10 ∧ (-10 : ℚ) - 120 ≤ -20 := by norm_num
end Verif
