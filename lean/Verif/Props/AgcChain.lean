import Verif.Model.AgcChain
import Verif.Props.ConditionerMore
import Verif.Props.CompChain
import Verif.Props.Delay
import Verif.Props.RoundSum
import Verif.Proof.RoundCompute
/-!
# C104: automatic gain control

Binary32/binary64 rounding included (`fl32`, `fl64`; `fa` is whatever rounding the accumulators of the moving sums have), decibel
tables included.
-/
namespace Verif
open Rounding Dyn Follow Decibel Cond RingBuf

namespace AgcChain

/-- The delay line with a fixed index, for every index: the index counts modulo the capacity. -/
theorem delay_run (look cap : Nat) (hs : look ≤ 2 ^ 63) (hcap : IsLeastPow2 look cap) (xs : List ℚ) :
    ∃ r outs, runC nfDelay (RingBuf.mk' 0 look) (xs.map fun x => (x, BitVec.ofNat 64 look)) = .ok (r, outs) ∧
      outs.length = xs.length ∧ ∀ n, n < xs.length → outs[n]? = some (sig xs ((n : Int) - (look % cap + 1 : Nat))) := by
  have hc : 0 < cap := by obtain ⟨⟨k, rfl⟩, -⟩ := hcap; positivity
  have hc63 : cap ≤ 2 ^ 63 := hcap.2.2 63 hs
  have hd : cap ∣ 2 ^ 64 := by
    obtain ⟨⟨k, rfl⟩, -⟩ := hcap
    have : k ≤ 63 := (Nat.pow_le_pow_iff_right (by norm_num)).1 hc63
    exact Nat.pow_dvd_pow 2 (by omega)
  obtain ⟨r, outs, e, hl, ho, -⟩ := C04_delay_line (K := ℚ) look cap hs hcap (xs.map fun x => (x, look % cap)) (by
    intro c hc'
    obtain ⟨x, -, rfl⟩ := List.mem_map.1 hc'
    exact Nat.mod_lt _ hc)
  rw [List.map_map] at e
  have hmap : xs.map ((fun c : ℚ × Nat => (c.1, BitVec.ofNat 64 c.2)) ∘ fun x => (x, look % cap)) =
      xs.map fun x => (x, BitVec.ofNat 64 (look % cap)) := rfl
  rw [hmap] at e
  have hx : (xs.map fun x => (x, look % cap)).map (·.1) = xs := by rw [List.map_map]; exact List.map_id xs
  rw [hx] at ho
  -- the same history with the index itself
  obtain ⟨r2, e2, h2⟩ := runC_refine nfDelay (fun vs c => (vs ++ [c.1], (ago vs (c.2.toNat % smallestPow2 look)).getD 0))
    (Hist 0 (smallestPow2 look)) (fun _ => True) (by
      intro r vs c _ h
      obtain ⟨r', e, h'⟩ := h.push c.1
      refine ⟨r', ?_, h'⟩
      simp only [nfDelay, h.get', e]; rfl)
    (RingBuf.mk' 0 look) [] (hist_mk' 0 look hs) (xs.map fun x => (x, BitVec.ofNat 64 look)) (by simp)
  obtain ⟨r1, e1, h1⟩ := runC_refine nfDelay (fun vs c => (vs ++ [c.1], (ago vs (c.2.toNat % smallestPow2 look)).getD 0))
    (Hist 0 (smallestPow2 look)) (fun _ => True) (by
      intro r vs c _ h
      obtain ⟨r', e, h'⟩ := h.push c.1
      refine ⟨r', ?_, h'⟩
      simp only [nfDelay, h.get', e]; rfl)
    (RingBuf.mk' 0 look) [] (hist_mk' 0 look hs) (xs.map fun x => (x, BitVec.ofNat 64 (look % cap))) (by simp)
  rw [e1] at e
  injection e with e
  injection e with _ e
  refine ⟨r2, _, e2, by simp, fun n hn => ?_⟩
  have ho' := ho n (by simpa using hn)
  simp only [List.getElem_map] at ho'
  rw [← e] at ho'
  push_cast at ho' ⊢
  rw [← ho']
  congr 1
  have same : ∀ (st : List ℚ) (ys : List ℚ),
      outputs (fun (vs : List ℚ) (c : ℚ × BitVec 64) => (vs ++ [c.1], (ago vs (c.2.toNat % smallestPow2 look)).getD 0)) st
          (ys.map fun x => (x, BitVec.ofNat 64 look)) =
        outputs (fun (vs : List ℚ) (c : ℚ × BitVec 64) => (vs ++ [c.1], (ago vs (c.2.toNat % smallestPow2 look)).getD 0)) st
          (ys.map fun x => (x, BitVec.ofNat 64 (look % cap))) := by
    intro st ys
    induction ys generalizing st with
    | nil => rfl
    | cons y ys ih =>
      simp only [List.map_cons, outputs, ih]
      congr 3
      rw [BitVec.toNat_ofNat, BitVec.toNat_ofNat, ← hcap.eq, Nat.mod_mod_of_dvd _ hd,
        Nat.mod_mod_of_dvd _ hd, Nat.mod_mod]
  exact same [] xs

/-- The factor and the crossfade always have a value. -/
theorem amp_ex (lev : ℚ) : ∃ a, toAmp fl32 fl64 (agcGain fl64 45 lev (-10)) = .ok a := by
  obtain ⟨v, e, -⟩ := toAmp_total (agcGain fl64 45 lev (-10)); exact ⟨v, e⟩

theorem cross_ex (a b lev : ℚ) : ∃ o, crossfade fl32 fl64 (-20) a b lev = .ok o := by
  rcases lt_or_ge lev (-20) with h | h
  · obtain ⟨x, y, e, -⟩ := C79_below (-20) a b lev h; exact ⟨y, e⟩
  · exact ⟨a, C79_above (-20) a b lev h⟩

open Classical in
/-- The factor as a function of the level. -/
noncomputable def ampOf (lev : ℚ) : ℚ := (amp_ex lev).choose
theorem ampOf_eq (lev : ℚ) : toAmp fl32 fl64 (agcGain fl64 45 lev (-10)) = .ok (ampOf lev) := (amp_ex lev).choose_spec
noncomputable def crossOf (a b lev : ℚ) : ℚ := (cross_ex a b lev).choose
theorem crossOf_eq (a b lev : ℚ) : crossfade fl32 fl64 (-20) a b lev = .ok (crossOf a b lev) := (cross_ex a b lev).choose_spec

/-- The leveled signal. -/
noncomputable def leveled (levs ds : List ℚ) : List ℚ := List.zipWith (fun lev d => fl32 (d * ampOf lev)) levs ds

theorem feed_run (fa : ℚ → ℚ) (look : Nat) (xs : List ℚ) : ∀ (c : Agc) (e' : Smooth) (d' : RingBuf ℚ) (m' : MovingSum ℚ) (levs ds sums : List ℚ),
    runC (rmsFeed fl32 fl64 fa) c.env xs = .ok (e', levs) →
    runC nfDelay c.delay (xs.map fun x => (x, BitVec.ofNat 64 look)) = .ok (d', ds) →
    runC (RoundFilter.movingSum fl32 fa) c.nrf (leveled levs ds) = .ok (m', sums) →
    ∃ c' outs, runC (Agc.feed fl32 fl64 fa look) c xs = .ok (c', outs) ∧ outs.length = xs.length ∧
      ∀ (n : Nat) (lev d : ℚ), levs[n]? = some lev → ds[n]? = some d → n < xs.length → ∃ sum,
        sums[n]? = some sum ∧ outs[n]? = some ⟨crossOf (fl32 (d * ampOf lev)) (fl32 (sum / fl32 c.nrf.size.toNat)) lev,
          fl32 (d * ampOf lev), lev, ampOf lev⟩ := by
  induction xs with
  | nil =>
    intro c e' d' m' levs ds sums _ _ _
    exact ⟨c, [], rfl, rfl, fun n lev d _ _ h => absurd h (by simp)⟩
  | cons x xs ih =>
    intro c e' d' m' levs ds sums h1 h2 h3
    rw [runC] at h1
    cases g1 : rmsFeed fl32 fl64 fa c.env x with
    | error z => rw [g1] at h1; cases h1
    | ok p =>
      obtain ⟨e1, lev⟩ := p
      rw [g1, bind_ok] at h1
      simp only [] at h1
      cases k1 : runC (rmsFeed fl32 fl64 fa) e1 xs with
      | error z => rw [k1] at h1; cases h1
      | ok p =>
        obtain ⟨e2, levs'⟩ := p
        rw [k1, bind_ok] at h1
        injection h1 with h1; injection h1 with h1 h1'; subst h1 h1'
        rw [List.map_cons, runC] at h2
        cases g2 : nfDelay c.delay (x, BitVec.ofNat 64 look) with
        | error z => rw [g2] at h2; cases h2
        | ok p =>
          obtain ⟨d1, d⟩ := p
          rw [g2, bind_ok] at h2
          simp only [] at h2
          cases k2 : runC nfDelay d1 (xs.map fun x => (x, BitVec.ofNat 64 look)) with
          | error z => rw [k2] at h2; cases h2
          | ok p =>
            obtain ⟨d2, ds'⟩ := p
            rw [k2, bind_ok] at h2
            injection h2 with h2; injection h2 with h2 h2'; subst h2 h2'
            have hlv : leveled (lev :: levs') (d :: ds') = fl32 (d * ampOf lev) :: leveled levs' ds' := rfl
            rw [hlv, runC] at h3
            cases g3 : RoundFilter.movingSum fl32 fa c.nrf (fl32 (d * ampOf lev)) with
            | error z => rw [g3] at h3; cases h3
            | ok p =>
              obtain ⟨m1, sum⟩ := p
              rw [g3, bind_ok] at h3
              simp only [] at h3
              cases k3 : runC (RoundFilter.movingSum fl32 fa) m1 (leveled levs' ds') with
              | error z => rw [k3] at h3; cases h3
              | ok p =>
                obtain ⟨m2, sums'⟩ := p
                rw [k3, bind_ok] at h3
                injection h3 with h3; injection h3 with h3 h3'; subst h3 h3'
                have hsz : m1.size = c.nrf.size := by
                  unfold RoundFilter.movingSum at g3
                  cases q1 : c.nrf.buff.get (c.nrf.size - 1) with
                  | error z => simp only [q1, bind, Except.bind] at g3; cases g3
                  | ok w =>
                    cases q2 : c.nrf.buff.push (fl32 (d * ampOf lev)) with
                    | error z => simp only [q1, q2, bind, Except.bind] at g3; cases g3
                    | ok b =>
                      simp only [q1, q2, bind, Except.bind] at g3
                      injection g3 with g3
                      injection g3 with g3 _
                      rw [← g3]
                obtain ⟨c', outs, h, hl, ho⟩ := ih ⟨e1, d1, m1⟩ e2 d2 m2 levs' ds' sums' k1 k2 k3
                refine ⟨c', ⟨crossOf (fl32 (d * ampOf lev)) (fl32 (sum / fl32 c.nrf.size.toNat)) lev,
                  fl32 (d * ampOf lev), lev, ampOf lev⟩ :: outs, ?_, by simp [hl], ?_⟩
                · have step : Agc.feed fl32 fl64 fa look c x = .ok (⟨e1, d1, m1⟩,
                      ⟨crossOf (fl32 (d * ampOf lev)) (fl32 (sum / fl32 c.nrf.size.toNat)) lev, fl32 (d * ampOf lev), lev, ampOf lev⟩) := by
                    unfold Agc.feed
                    rw [g1, bind_ok]
                    simp only []
                    rw [g2, bind_ok]
                    simp only []
                    rw [ampOf_eq, bind_ok]
                    rw [g3, bind_ok]
                    simp only []
                    rw [hsz, crossOf_eq, bind_ok]
                    rfl
                  rw [runC, step, bind_ok]
                  simp only []
                  rw [h, bind_ok]
                  rfl
                · intro n lv dd a1 a2 a3
                  cases n with
                  | zero =>
                    simp only [List.getElem?_cons_zero, Option.some.injEq] at a1 a2 ⊢
                    subst a1 a2
                    exact ⟨sum, rfl, rfl⟩
                  | succ n =>
                    simp only [List.getElem?_cons_succ] at a1 a2 ⊢
                    obtain ⟨s', b1, b2⟩ := ho n lv dd a1 a2 (by simpa using a3)
                    rw [hsz] at b2
                    exact ⟨s', b1, b2⟩


theorem runC_len {σ ι ο : Type} {step : σ → ι → C (σ × ο)} : ∀ {xs : List ι} {s s' : σ} {ys : List ο},
    runC step s xs = .ok (s', ys) → ys.length = xs.length := by
  intro xs
  induction xs with
  | nil => intro s s' ys h; injection h with h; injection h with _ h; subst h; rfl
  | cons x xs ih =>
    intro s s' ys h
    rw [runC] at h
    cases e1 : step s x with
    | error z => rw [e1] at h; cases h
    | ok p =>
      obtain ⟨s1, y⟩ := p
      rw [e1, bind_ok] at h
      simp only [] at h
      cases e2 : runC step s1 xs with
      | error z => rw [e2] at h; cases h
      | ok q =>
        obtain ⟨s2, zs⟩ := q
        rw [e2, bind_ok] at h
        injection h with h; injection h with _ h
        rw [← h, List.length_cons, List.length_cons, ih e2]

/-- The gain in dB as a function of the measured level. -/
theorem amp_law (lev amp : ℚ) (h1 : -121 / 2 ≤ lev) (h2 : lev ≤ 121 / 2) (e : toAmp fl32 fl64 (agcGain fl64 45 lev (-10)) = .ok amp) :
    0 < (amp : ℝ) ∧ |20 * Real.logb 10 (amp : ℝ) - min (-10 - lev) (100 + lev : ℚ)| ≤ 1 / 2000 := by
  have r45 : Rep 53 (-1074) 45 := ⟨45, 0, by norm_num, by norm_num, by norm_num⟩
  have a1 := err64 (-10 - lev)
  have hb : |(-10 - lev : ℚ)| ≤ 71 := by rw [abs_le]; constructor <;> linarith
  -- the gain
  have g1 : |agcGain fl64 45 lev (-10) - min (-10 - lev) (100 + lev)| ≤ 1 / 10 ^ 8 := by
    have c : |fl64 (-10 - lev) - (-10 - lev)| ≤ 1 / 10 ^ 8 / 4 := by
      refine a1.trans ?_
      have : |(-10 - lev : ℚ)| / 2 ^ 53 ≤ 71 / 2 ^ 53 := div_le_div_of_nonneg_right hb (by norm_num)
      norm_num at this ⊢
      linarith
    have c' := abs_le.1 c
    unfold agcGain
    simp only []
    split_ifs with hg
    · have a2 := err64 (fl64 (-10 - lev) - 45)
      have a3 := err64 (45 - fl64 (fl64 (-10 - lev) - 45))
      have q : |fl64 (-10 - lev) - 45| ≤ 27 := by rw [abs_le]; constructor <;> linarith
      have b2 : |fl64 (-10 - lev) - 45| / 2 ^ 53 ≤ 27 / 2 ^ 53 := div_le_div_of_nonneg_right q (by norm_num)
      have d2 := abs_le.1 (a2.trans (add_le_add_left b2 _))
      have q3 : |45 - fl64 (fl64 (-10 - lev) - 45)| ≤ 100 := by
        have := abs_le.1 q
        norm_num at d2
        rw [abs_le]; constructor <;> linarith [d2.1, d2.2]
      have b3 : |45 - fl64 (fl64 (-10 - lev) - 45)| / 2 ^ 53 ≤ 100 / 2 ^ 53 := div_le_div_of_nonneg_right q3 (by norm_num)
      have d3 := abs_le.1 (a3.trans (add_le_add_left b3 _))
      norm_num at d2 d3 c' ⊢
      rcases le_total (-10 - lev) (100 + lev) with h | h
      · rw [min_eq_left h, abs_le]; constructor <;> linarith [d2.1, d2.2, d3.1, d3.2]
      · rw [min_eq_right h, abs_le]; constructor <;> linarith [d2.1, d2.2, d3.1, d3.2]
    · push Not at hg
      have hle : -10 - lev ≤ 100 + lev + 1 / 10 ^ 8 / 2 := by norm_num at c' ⊢; linarith [c'.1]
      norm_num at c' hle ⊢
      rcases le_total (-10 - lev) (100 + lev) with h | h
      · rw [min_eq_left h, abs_le]; constructor <;> linarith [c'.1, c'.2]
      · rw [min_eq_right h, abs_le]; constructor <;> linarith [c'.1, c'.2]
  set g := agcGain fl64 45 lev (-10) with hgd
  set G := min (-10 - lev) (100 + lev) with hG
  have G1 : -71 ≤ G := le_min (by linarith) (by linarith)
  have G2 : G ≤ 45 := by
    rcases le_total lev (-55) with h | h
    · exact (min_le_right _ _).trans (by linarith)
    · exact (min_le_left _ _).trans (by linarith)
  have g1' := abs_le.1 g1
  have f1 : |fl32 g - G| ≤ 1 / 10 ^ 5 := by
    have := err32 g
    have q : |g| ≤ 72 := by rw [abs_le]; norm_num at g1'; constructor <;> linarith [g1'.1, g1'.2]
    have b : |g| / 2 ^ 24 ≤ 72 / 2 ^ 24 := div_le_div_of_nonneg_right q (by norm_num)
    have d := abs_le.1 (this.trans (add_le_add_left b _))
    norm_num at d g1' ⊢
    rw [abs_le]; constructor <;> linarith [d.1, d.2, g1'.1, g1'.2]
  have f1' := abs_le.1 f1
  have acc := C61_db2a_accuracy fl32_lawful fl64_lawful (fl32 g) amp (fl32_lawful.rep _) (by norm_num at f1'; linarith [f1'.1])
    (by norm_num at f1'; linarith [f1'.2]) e
  have I0 : 0 < (10 : ℝ) ^ (((fl32 g : ℚ) : ℝ) / 20) := Real.rpow_pos_of_pos (by norm_num) _
  obtain ⟨p0, pl⟩ := Chain.level_close I0 (by norm_num) (by norm_num) acc
  refine ⟨p0, ?_⟩
  rw [Real.logb_rpow (by norm_num) (by norm_num)] at pl
  have f2 : |((fl32 g : ℚ) : ℝ) - G| ≤ 1 / 10 ^ 5 := by
    have := (Rat.cast_le (K := ℝ)).mpr f1
    push_cast at this
    exact this
  rw [abs_le] at pl f2 ⊢
  norm_num at pl f2 ⊢
  constructor <;> linarith [pl.1, pl.2, f2.1, f2.2]

end AgcChain
open AgcChain

/-- **C104** For every signal the whole chain succeeds.  For every sample: the measured level is that of the RMS follower and between -60.5
and 60.5 dB; the leveled sample is the delayed input times a factor whose dB value is `-10 - level` down to a level of -55 dB and falls
again below that, within 1/2000 dB; from a level of -20 dB on, the output is the leveled sample itself, below that it is a mix with the
output of the library's 32-sample moving average for the leveled signal. -/
theorem C104_agc (fa : ℚ → ℚ) (hold look cap : Nat) (h1 : 0 < hold) (h2 : hold ≤ 2 ^ 63) (hs : look ≤ 2 ^ 63) (hcap : IsLeastPow2 look cap)
    (xs : List ℚ) :
    ∃ (c : Agc) (outs : List Out) (e : Smooth) (m : MovingSum ℚ) (sums : List ℚ),
      runC (Agc.feed fl32 fl64 fa look) (Agc.mk' hold look) xs = .ok (c, outs) ∧ outs.length = xs.length ∧
      runC (rmsFeed fl32 fl64 fa) (Smooth.mk' 2 hold) xs = .ok (e, outs.map (·.level)) ∧
      runC (RoundFilter.movingSum fl32 fa) (MovingSum.mk' 32) (outs.map (·.leveled)) = .ok (m, sums) ∧
      ∀ n, n < xs.length → ∃ o sum, outs[n]? = some o ∧ sums[n]? = some sum ∧ -121 / 2 ≤ o.level ∧ o.level ≤ 121 / 2 ∧
        o.leveled = fl32 (sig xs ((n : Int) - (look % cap + 1 : Nat)) * o.amp) ∧ 0 < (o.amp : ℝ) ∧
        (-55 ≤ o.level → |20 * Real.logb 10 (o.amp : ℝ) - (-10 - o.level)| ≤ 1 / 2000) ∧
        (o.level ≤ -55 → |20 * Real.logb 10 (o.amp : ℝ) - (100 + o.level)| ≤ 1 / 2000) ∧
        (-20 ≤ o.level → o.out = o.leveled) ∧
        (o.level < -20 → ∃ x : ℚ, 0 < x ∧ x ≤ 1 ∧ |o.out - (x * o.leveled + (1 - x) * fl32 (sum / 32))| ≤
            max |o.leveled| |fl32 (sum / 32)| / 2 ^ 22 + 1 / 2 ^ 140 ∧
          |(x : ℝ) - (10 : ℝ) ^ (((o.level : ℝ) + 20) / 20)| ≤ 30 / 10 ^ 6 * (10 : ℝ) ^ (((o.level : ℝ) + 20) / 20)) := by
  obtain ⟨_, _, e, levs, -, hr, hF, hlv⟩ := C80_rms_total fa 2 hold h1 h2 xs
  obtain ⟨d, ds, hd, hdl, hdv⟩ := delay_run look cap hs hcap xs
  obtain ⟨m, hm, -⟩ := RoundFilter.movingSum_refines 32 fl32 fa (by norm_num) (by norm_num) (leveled levs ds)
  obtain ⟨c, outs, hc, hl, ho⟩ := feed_run fa look xs (Agc.mk' hold look) e d m levs ds _ hr hd hm
  have hll := runC_len hr
  have get : ∀ n, n < xs.length → ∃ lev dd sum, levs[n]? = some lev ∧ ds[n]? = some dd ∧
      dd = sig xs ((n : Int) - (look % cap + 1 : Nat)) ∧
      (outputs (RoundFilter.accStep 32 fl32 fa) (List.replicate 32 0, 0) (leveled levs ds))[n]? = some sum ∧
      outs[n]? = some ⟨crossOf (fl32 (dd * ampOf lev)) (fl32 (sum / 32)) lev, fl32 (dd * ampOf lev), lev, ampOf lev⟩ := by
    intro n hn
    obtain ⟨sum, q1, q2⟩ := ho n (levs[n]'(by omega)) (ds[n]'(by omega)) (List.getElem?_eq_getElem _) (List.getElem?_eq_getElem _) hn
    have h32 : fl32 (((Agc.mk' hold look).nrf.size.toNat : ℕ) : ℚ) = 32 := by
      have : (Agc.mk' hold look).nrf.size.toNat = 32 := by simp [Agc.mk', MovingSum.mk']
      rw [this]
      exact fl32_lawful.fix _ ⟨32, 0, by norm_num, by norm_num, by norm_num⟩
    rw [h32] at q2
    refine ⟨_, _, sum, List.getElem?_eq_getElem _, List.getElem?_eq_getElem _, ?_, q1, q2⟩
    have := hdv n hn
    rw [List.getElem?_eq_getElem (by omega)] at this
    exact Option.some.inj this
  have mapLev : outs.map (·.level) = levs := by
    apply List.ext_getElem?
    intro n
    rcases lt_or_ge n xs.length with hn | hn
    · obtain ⟨lev, dd, sum, a1, -, -, -, a5⟩ := get n hn
      rw [List.getElem?_map, a5, a1]; rfl
    · rw [List.getElem?_eq_none (by rw [List.length_map]; omega), List.getElem?_eq_none (by omega)]
  have mapR : outs.map (·.leveled) = leveled levs ds := by
    apply List.ext_getElem?
    intro n
    rcases lt_or_ge n xs.length with hn | hn
    · obtain ⟨lev, dd, sum, a1, a2, -, -, a5⟩ := get n hn
      rw [List.getElem?_map, a5, leveled, List.getElem?_zipWith, a1, a2]; rfl
    · rw [List.getElem?_eq_none (by rw [List.length_map]; omega), List.getElem?_eq_none (by
        rw [leveled, List.length_zipWith]; omega)]
  refine ⟨c, outs, e, m, _, hc, hl, by rw [mapLev]; exact hr, by rw [mapR]; exact hm, fun n hn => ?_⟩
  obtain ⟨lev, dd, sum, a1, a2, a3, a4, a5⟩ := get n hn
  obtain ⟨v1, v2⟩ := hlv lev (List.mem_of_getElem? a1)
  obtain ⟨p0, pl⟩ := amp_law lev _ v1 v2 (ampOf_eq lev)
  refine ⟨_, sum, a5, a4, v1, v2, by rw [a3], p0, fun h => ?_, fun h => ?_, fun h => ?_, fun h => ?_⟩
  · simp only at h ⊢
    rw [min_eq_left (by linarith)] at pl
    push_cast at pl
    exact pl
  · simp only at h ⊢
    rw [min_eq_right (by linarith)] at pl
    push_cast at pl
    exact pl
  · simp only at h ⊢
    have := crossOf_eq (fl32 (dd * ampOf lev)) (fl32 (sum / 32)) lev
    rw [C79_above _ _ _ _ h] at this
    injection this with this
    exact this.symm
  · simp only at h ⊢
    obtain ⟨x, y, ex, x0, x1, xe, -, -, xa⟩ := C79_below (-20) (fl32 (dd * ampOf lev)) (fl32 (sum / 32)) lev h
    rw [crossOf_eq] at ex
    injection ex with ex
    refine ⟨x, x0, x1, by rw [ex]; exact xe, ?_⟩
    have := xa (by linarith)
    push_cast at this
    rw [sub_neg_eq_add] at this
    exact this

/-- **C104** is false at sample rates for which 500 microseconds are a power of two of samples, such as 32 kHz: the delay line of 16
samples read 16 samples back returns the newest one, so the look-ahead is one sample (at 44.1 kHz, where it is 22 samples, it is 23). -/
theorem C104_lookahead_violation (fa : ℚ → ℚ) (hold : Nat) (h1 : 0 < hold) (h2 : hold ≤ 2 ^ 63) (xs : List ℚ) :
    lookahead fl32 fl64 32000 = 16 ∧ lookahead fl32 fl64 44100 = 22 ∧
    (∃ c outs, runC (Agc.feed fl32 fl64 fa (lookahead fl32 fl64 32000)) (Agc.mk' hold (lookahead fl32 fl64 32000)) xs = .ok (c, outs) ∧
      ∀ n, n < xs.length → ∃ o, outs[n]? = some o ∧ o.leveled = fl32 (sig xs ((n : Int) - 1) * o.amp)) ∧
    (∃ c outs, runC (Agc.feed fl32 fl64 fa (lookahead fl32 fl64 44100)) (Agc.mk' hold (lookahead fl32 fl64 44100)) xs = .ok (c, outs) ∧
      ∀ n, n < xs.length → ∃ o, outs[n]? = some o ∧ o.leveled = fl32 (sig xs ((n : Int) - 23) * o.amp)) := by
  have e32 : lookahead fl32 fl64 32000 = 16 := by
    unfold lookahead UnitTypes.scaledInt fl32 fl64
    rw [← rndc_eq, ← rndc_eq]
    decide +kernel
  have e44 : lookahead fl32 fl64 44100 = 22 := by
    unfold lookahead UnitTypes.scaledInt fl32 fl64
    rw [← rndc_eq, ← rndc_eq]
    decide +kernel
  refine ⟨e32, e44, ?_, ?_⟩
  · rw [e32]
    obtain ⟨c, outs, _, _, _, h, -, -, -, k⟩ := C104_agc fa hold 16 16 h1 h2 (by norm_num) ⟨⟨4, by norm_num⟩, le_rfl, fun k hk => hk⟩ xs
    refine ⟨c, outs, h, fun n hn => ?_⟩
    obtain ⟨o, _, q1, -, -, -, q2, -⟩ := k n hn
    exact ⟨o, q1, q2⟩
  · rw [e44]
    obtain ⟨c, outs, _, _, _, h, -, -, -, k⟩ := C104_agc fa hold 22 32 h1 h2 (by norm_num) ⟨⟨5, by norm_num⟩, by norm_num, fun k hk => by
      by_contra hc
      have : 2 ^ k < 2 ^ 5 := by omega
      have : k < 5 := (Nat.pow_lt_pow_iff_right (by norm_num)).1 this
      have : 2 ^ k ≤ 2 ^ 4 := Nat.pow_le_pow_right (by norm_num) (by omega)
      omega⟩ xs
    refine ⟨c, outs, h, fun n hn => ?_⟩
    obtain ⟨o, _, q1, -, -, -, q2, -⟩ := k n hn
    exact ⟨o, q1, q2⟩

/-- The hypotheses of `C104_agc` are met: a hold of 441 samples, a look-ahead of 22 samples in a buffer of 32, and an input
with a sample of either sign, whose look-ahead value at sample 23 is the first sample. -/
example : (0 : Nat) < 441 ∧ (441 : Nat) ≤ 2 ^ 63 ∧ (22 : Nat) ≤ 2 ^ 63 ∧ IsLeastPow2 22 32 ∧
    sig ([1 / 2, -3 / 4] ++ List.replicate 30 0) ((23 : Int) - (22 % 32 + 1 : Nat)) = 1 / 2 ∧
    sig ([1 / 2, -3 / 4] ++ List.replicate 30 0) ((24 : Int) - (22 % 32 + 1 : Nat)) = -3 / 4 := by
  refine ⟨by norm_num, by norm_num, by norm_num, ⟨⟨5, by norm_num⟩, by norm_num, fun k hk => ?_⟩, by decide +kernel, by decide +kernel⟩
  by_contra hc
  have : 2 ^ k < 2 ^ 5 := by omega
  have : k < 5 := (Nat.pow_lt_pow_iff_right (by norm_num)).1 this
  have : 2 ^ k ≤ 2 ^ 4 := Nat.pow_le_pow_right (by norm_num) (by omega)
  omega

end Verif
