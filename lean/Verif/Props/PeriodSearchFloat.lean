import Verif.Props.PeriodSearch
import Verif.Props.PitchFloat
/-!
# Properties C76 and C77 in single precision
-/
namespace Verif
open FloatOps Rounding
variable {F : Type} [FloatOps F]
attribute [local irreducible] i32 u64

/-- What a call that completes a window reports, for every floating-point semantics. -/
theorem estimate_any {W : Nat} {p : PD F} (inv : PD.PInv W p) {H : Nat → Prop} (hH : PD.HOk p H) (s : F) (p' : PD F) (hs : p.step s = .ok (p', true)) :
    let loud := fun (j : Nat) (e : ZInfo F) => j < p'.zc.numEdges ∧ p'.zc.edge j = .ok e ∧ le p'.threshold e.peak = true
    let half : Int := (p'.zc.window / 2 : Nat)
    let flagged := (¬ ∃ i j a b, i < j ∧ loud i a ∧ loud j b) ∨ (∀ j e, loud j e → ¬ (0 ≤ e.leading ∧ e.leading ≤ half)) ∨
      (∀ j e, loud j e → 0 ≤ e.trailing ∧ e.trailing < half)
    (flagged ∧ p'.fundamental.periodicity = lit (-1)) ∨
    (¬ flagged ∧ (p'.fundamental = PInfo.default ∨
      ∃ (i j : Nat) (a b : ZInfo F) (m lag count : Nat) (frac : F), i < j ∧ loud i a ∧ loud j b ∧
        (p'.minPeriod : Int) ≤ b.leading - a.leading ∧ b.leading - a.leading ≤ half ∧
        a.fractionalPeriod b = .ok frac ∧ H m ∧
        PD.LagOf p'.bits p'.minPeriod (b.leading - a.leading).toNat lag count ∧
        p'.fundamental = ⟨div frac (ofInt m), PD.periodicityOf p' count⟩)) := by
  intro loud half flagged
  obtain ⟨k1, k2, k3, k4, k5, k6⟩ := PD.step_post inv hH s _ hs
  have hrep := k6 rfl
  simp only at k1 k2 k3 k4 k5 hrep
  have inv' : PD.PInv W p' := by
    rcases PD.step_ok inv s with ⟨r', e', i', -⟩ | e'
    · rw [hs] at e'; injection e' with e'; rw [← e'] at i'; exact i'
    · rw [hs] at e'; cases e'
  have hwin : p'.zc.window = W := inv'.inv.window
  have hhalf : half = p'.midPoint := by simp only [half]; rw [hwin, inv'.mid]
  have hloud : ∀ j e, PD.Loud p' j e ↔ loud j e := by
    intro j e
    exact Iff.rfl
  have hWk := inv'.bits.ok
  have hWlt := hWk.lt
  have hbnd : ∀ j e, loud j e → -2 ^ 31 < e.leading ∧ e.leading < 2 ^ 31 ∧ -2 ^ 31 < e.trailing ∧ e.trailing < 2 ^ 31 ∧
      e.leading < e.trailing := by
    intro j e hje
    have hj := hje.1
    have he := ZC.edge_ok inv'.inv.toRep j hj
    rw [hje.2.1] at he
    injection he with he
    have hready : p'.zc.ready = true := by
      rcases PD.step_ok inv s with ⟨r', e', -, i', -⟩ | e'
      · rw [hs] at e'; injection e' with e'; rw [← e'] at i'; exact i'.symm
      · rw [hs] at e'; cases e'
    have hok := inv'.inv.ok
    rw [(inv'.inv.ready hready).1] at hok
    have hm := ZC.closed_mem hok (List.getElem_mem (n := p'.zc.numEdges - 1 - j) (by rw [inv'.inv.toRep.edges_length]; omega))
    rw [← he] at hm
    have hf := inv'.inv.frame
    omega
  have hmidlt : p'.midPoint < 2 ^ 28 := by rw [inv'.mid]; omega
  have hflag : ((∀ j e, PD.Loud p' j e → p'.midPoint < u64 e.leading) ∨ (∀ j e, PD.Loud p' j e → u64 e.trailing < p'.midPoint) ∨
      PD.loudCount p' < 2) ↔ flagged := by
    have hu : ∀ x : Int, -2 ^ 31 < x → x < 2 ^ 31 → (u64 x : Int) = if x < 0 then 2 ^ 64 + x else x := by
      intro x h1 h2
      split
      · rename_i hx
        have : (x % 2 ^ 64) = 2 ^ 64 + x := by omega
        rw [u64, this]; omega
      · exact u64_id (by omega) (by omega)
    have e1 : (∀ j e, PD.Loud p' j e → p'.midPoint < u64 e.leading) ↔ (∀ j e, loud j e → ¬ (0 ≤ e.leading ∧ e.leading ≤ half)) := by
      refine forall_congr' fun j => forall_congr' fun e => ?_
      rw [hloud]
      refine imp_congr_right fun hje => ?_
      obtain ⟨b1, b2, b3, b4, b5⟩ := hbnd j e hje
      have := hu e.leading b1 b2
      rw [hhalf]
      split at this <;> omega
    have e2 : (∀ j e, PD.Loud p' j e → u64 e.trailing < p'.midPoint) ↔ (∀ j e, loud j e → 0 ≤ e.trailing ∧ e.trailing < half) := by
      refine forall_congr' fun j => forall_congr' fun e => ?_
      rw [hloud]
      refine imp_congr_right fun hje => ?_
      obtain ⟨b1, b2, b3, b4, b5⟩ := hbnd j e hje
      have := hu e.trailing b3 b4
      rw [hhalf]
      split at this <;> omega
    have e3 : PD.loudCount p' < 2 ↔ ¬ ∃ i j a b, i < j ∧ loud i a ∧ loud j b := by
      rw [← not_le, PD.loudCount, two_le_filter]
      apply not_congr
      constructor
      · rintro ⟨i, j, hij, hj, hi1, hj1⟩
        have ei := ZC.edge_ok inv'.inv.toRep i (by omega)
        have ej := ZC.edge_ok inv'.inv.toRep j hj
        rw [ei] at hi1
        rw [ej] at hj1
        exact ⟨i, j, _, _, hij, (hloud _ _).1 ⟨by omega, ei, hi1⟩, (hloud _ _).1 ⟨hj, ej, hj1⟩⟩
      · rintro ⟨i, j, a, b, hij, ha, hb⟩
        obtain ⟨a1, a2, a3⟩ := (hloud _ _).2 ha
        obtain ⟨b1, b2, b3⟩ := (hloud _ _).2 hb
        exact ⟨i, j, hij, b1, by rw [a2]; exact a3, by rw [b2]; exact b3⟩
    rw [e1, e2, e3]
    have rot : ∀ A B C : Prop, (A ∨ B ∨ C) ↔ (C ∨ A ∨ B) := by intros; tauto
    exact rot _ _ _
  rw [PD.Report, hflag] at hrep
  rcases hrep with ⟨r1, r2⟩ | ⟨r1, r2⟩
  · exact Or.inl ⟨r1, r2⟩
  · refine Or.inr ⟨r1, ?_⟩
    rcases r2 with r2 | ⟨x, per, hx, hper, hfund⟩
    · exact Or.inl r2
    · right
      obtain ⟨x1, x2, x3, a, b, n, lag, count, g1, g2, g3, g4, g5, g6, g7, g8, g9⟩ := hx
      have hla : loud x.i1 a := (hloud _ _).1 ⟨by omega, g1, g3⟩
      have hlb : loud x.i2 b := (hloud _ _).1 ⟨x2, g2, g4⟩
      have hn : (n : Int) = b.leading - a.leading := by
        have hle : a.leading ≤ b.leading := by
          by_contra hc
          rw [ZInfo.period, if_neg hc] at g5
          cases g5
        have b1 := hbnd _ _ hla
        have b2 := hbnd _ _ hlb
        rw [ZInfo.period, if_pos hle] at g5
        rcases lt_or_ge (b.leading - a.leading) (2 ^ 31) with hd | hd
        · rw [subInt_ok (by omega) hd] at g5
          injection g5 with g5
          rw [← g5]
          exact u64_id (by omega) (by omega)
        · rw [subInt, if_neg (by omega)] at g5
          cases g5
      have hfp : a.fractionalPeriod b = .ok per := by
        rw [PD.periodOf, g1, PD.ok_bind, g2, PD.ok_bind] at hper
        exact hper
      refine ⟨x.i1, x.i2, a, b, x.harmonic, lag, count, per, x1, hla, hlb, ?_, ?_, hfp, x3, ?_, ?_⟩
      · rw [← hn]; exact_mod_cast g6
      · rw [hhalf, ← hn]; exact_mod_cast g7
      · rw [← hn, Int.toNat_natCast]; exact g8
      · rw [hfund, g9]

theorem hok32 (p : PD F32) (hr : 1 ≤ p.range) (hr2 : p.range < 2 ^ 31) : PD.HOk p fun n => 1 ≤ n ∧ (n : Int) ≤ p.range := by
  refine ⟨⟨le_refl _, by simpa using hr⟩, fun a m em => ?_⟩
  have h1 : (1 : ℚ) ≤ (FloatOps.max (lit 1) a : F32).val := by
    rw [FloatOps.max]
    split
    · rename_i hc
      rw [g32_lt, g32_one] at hc
      exact hc.le
    · rw [g32_one]
  have em' : toI32 (FloatOps.max (lit 1) a : F32).val = .ok m := em
  obtain ⟨hm, hm2⟩ := toI32_floor (by linarith) em'
  have hm1 : 1 ≤ m := by rw [hm, Int.le_floor]; exact_mod_cast h1
  have := u64_id (x := min p.range m) (by omega) (by omega)
  constructor <;> omega

/-- **C76** (single precision) What a call that completes a window reports, with every operation rounded to binary32.  The decision which pulses are loud, the two
pulses chosen, the bounds on their distance and the mismatch count are as in exact arithmetic; the two numbers reported are rounded: the period is the (rounded)
interpolated distance divided by a whole number between 1 and the ratio of the frequencies, the periodicity is computed from the number of mismatches by three
rounded operations. -/
theorem C76_estimate_binary32 (lowest highest hyst : F32) (sps : Nat) (hl : 0 < lowest.val) (p : PD F32)
    (h : PReach lowest highest sps hyst p) (s : F32) (p' : PD F32) (hs : p.step s = .ok (p', true)) :
    let loud := fun (j : Nat) (e : ZInfo F32) =>
      j < p'.zc.numEdges ∧ p'.zc.edge j = .ok e ∧ fl32 (p'.zc.peakPulse.val * fl32 (6 / 10)) ≤ e.peak.val
    let half : Int := (p'.zc.window / 2 : Nat)
    let flagged := (¬ ∃ i j a b, i < j ∧ loud i a ∧ loud j b) ∨ (∀ j e, loud j e → ¬ (0 ≤ e.leading ∧ e.leading ≤ half)) ∨
      (∀ j e, loud j e → 0 ≤ e.trailing ∧ e.trailing < half)
    (flagged ∧ p'.fundamental.periodicity.val = -1) ∨
    (¬ flagged ∧ ((p'.fundamental.period.val = -1 ∧ p'.fundamental.periodicity.val = 0) ∨
      ∃ (i j : Nat) (a b : ZInfo F32) (m lag count : Nat) (frac : F32), i < j ∧ loud i a ∧ loud j b ∧
        ⌊fl32 (fl32 (1 / highest.val) * fl32 sps)⌋ ≤ b.leading - a.leading ∧ b.leading - a.leading ≤ half ∧
        a.fractionalPeriod b = .ok frac ∧ 1 ≤ m ∧ (m : Int) ≤ ⌊fl32 (highest.val / lowest.val)⌋ ∧
        PD.LagOf p'.bits p'.minPeriod (b.leading - a.leading).toNat lag count ∧
        p'.fundamental.period.val = fl32 (frac.val / fl32 m) ∧
        p'.fundamental.periodicity.val = fl32 (1 - fl32 (fl32 count * fl32 (2 / fl32 p'.zc.window))))) := by
  obtain ⟨inv, -⟩ := preach_inv h
  obtain ⟨c1, c2, c3⟩ := preach_consts h
  have hhl : lowest.val < highest.val := (g32_le' _ _).1 c3
  have c2' : toI32 (fl32 (highest.val / lowest.val)) = .ok p.range := c2
  have hq0 : 1 ≤ fl32 (highest.val / lowest.val) := by
    have h1 : fl32 (1 : ℚ) = 1 := by exact_mod_cast g32_int 1 (by norm_num)
    rw [← h1]
    apply fl32_lawful.mono
    rw [le_div_iff₀ hl]; linarith
  obtain ⟨hrange, hrlt⟩ := toI32_floor (by linarith) c2'
  have hr1 : 1 ≤ p.range := by rw [hrange, Int.le_floor]; exact_mod_cast hq0
  have c1' : toU64 (fl32 (fl32 (1 / highest.val) * fl32 sps)) = .ok p.minPeriod := by
    rw [← c1]
    show _ = toU64 (fl32 (fl32 ((lit 1 : F32).val / highest.val) * fl32 ((sps : Int) : ℚ)))
    rw [g32_one, Int.cast_natCast]
  have hminp := toU64_floor (fl32_lawful.nonneg (mul_nonneg (fl32_lawful.nonneg (div_nonneg (by norm_num) (by linarith)))
    (fl32_lawful.nonneg (by positivity)))) c1'
  obtain ⟨k1, k2, -⟩ := PD.step_post inv (hok32 p hr1 hrlt) s _ hs
  have inv' : PD.PInv p.zc.window p' := by
    rcases PD.step_ok inv s with ⟨r', e', i', -⟩ | e'
    · rw [hs] at e'; injection e' with e'; rw [← e'] at i'; exact i'
    · rw [hs] at e'; cases e'
  have hwin : p'.zc.window = p.zc.window := inv'.inv.window
  have key := estimate_any inv (hok32 p hr1 hrlt) s p' hs
  have hloud : ∀ e : ZInfo F32, (le p'.threshold e.peak = true) ↔ fl32 (p'.zc.peakPulse.val * fl32 (6 / 10)) ≤ e.peak.val := fun e => g32_le _ _
  simp only [hloud] at key
  intro loud half flagged
  rcases key with ⟨f1, f2⟩ | ⟨f1, f2⟩
  · exact Or.inl ⟨f1, by rw [f2, g32_m1]⟩
  · refine Or.inr ⟨f1, ?_⟩
    rcases f2 with f2 | ⟨i, j, a, b, m, lag, count, frac, e1, e2, e3, e4, e5, e6, ⟨e7, e8⟩, e9, e10⟩
    · left; rw [f2]; exact ⟨g32_m1, g32_zero⟩
    · right
      refine ⟨i, j, a, b, m, lag, count, frac, e1, e2, e3, ?_, e5, e6, e7, ?_, e9, ?_, ?_⟩
      · rw [← hminp]; simp only at k2; rw [k2] at e4; exact e4
      · rw [← hrange]; exact e8
      · rw [e10]
        show fl32 (frac.val / fl32 ((m : Int) : ℚ)) = _
        rw [Int.cast_natCast]
      · rw [e10]
        show fl32 ((lit 1 : F32).val - fl32 (fl32 ((count : Int) : ℚ) * p'.weight.val)) = _
        rw [inv'.weight]
        show fl32 ((lit 1 : F32).val - fl32 (fl32 ((count : Int) : ℚ) * fl32 ((lit 2 : F32).val / fl32 ((p.zc.window : Int) : ℚ)))) = _
        rw [g32_one, g32_two, Int.cast_natCast, Int.cast_natCast, hwin]

/-- The position of a crossing within its frame, computed in single precision. -/
theorem crossing32 {u v : ℚ} (hr : Rep 24 (-149) u) (hu : u ≤ 0) (hv : 0 < v) : 0 ≤ fl32 (-u / fl32 (v - u)) ∧ fl32 (-u / fl32 (v - u)) ≤ 1 := by
  have h1 : fl32 (1 : ℚ) = 1 := by exact_mod_cast g32_int 1 (by norm_num)
  have hm : -u ≤ fl32 (v - u) := by
    have := fl32_lawful.mono (-u) (v - u) (by linarith)
    rwa [fl32_lawful.fix _ (rep_neg hr)] at this
  have h0 : 0 ≤ fl32 (v - u) := fl32_lawful.nonneg (by linarith)
  refine ⟨fl32_lawful.nonneg (div_nonneg (by linarith) h0), ?_⟩
  rw [← h1]
  apply fl32_lawful.mono
  exact div_le_one_of_le₀ hm h0

/-- **C76** (single precision) If both crossings straddle zero (the sample before is not above zero, the first sample of the pulse is), the rounded interpolated distance
differs from the distance of the leading edges by at most one frame. -/
theorem C76_fraction_binary32 (a b : ZInfo F32) (frac : F32) (h : a.fractionalPeriod b = .ok frac)
    (ra : Rep 24 (-149) a.crossing.1.val) (rb : Rep 24 (-149) b.crossing.1.val)
    (ha : a.crossing.1.val ≤ 0 ∧ 0 < a.crossing.2.val) (hb : b.crossing.1.val ≤ 0 ∧ 0 < b.crossing.2.val)
    (hd : b.leading - a.leading < 2 ^ 24) :
    ((b.leading - a.leading : Int) : ℚ) - 1 ≤ frac.val ∧ frac.val ≤ ((b.leading - a.leading : Int) : ℚ) + 1 := by
  rw [ZInfo.fractionalPeriod] at h
  split at h
  · rename_i hle
    simp only [] at h
    rw [subInt_ok (by omega) (by omega), PD.ok_bind] at h
    injection h with h
    obtain ⟨a0, a1⟩ := crossing32 ra ha.1 ha.2
    obtain ⟨b0, b1⟩ := crossing32 rb hb.1 hb.2
    generalize hn : b.leading - a.leading = n at *
    have hv : frac.val = fl32 (fl32 (n : ℚ) + fl32 (fl32 (-b.crossing.1.val / fl32 (b.crossing.2.val - b.crossing.1.val)) -
        fl32 (-a.crossing.1.val / fl32 (a.crossing.2.val - a.crossing.1.val)))) := by rw [← h]; rfl
    generalize fl32 (-b.crossing.1.val / fl32 (b.crossing.2.val - b.crossing.1.val)) = x at *
    generalize fl32 (-a.crossing.1.val / fl32 (a.crossing.2.val - a.crossing.1.val)) = y at *
    have e1 : fl32 (n : ℚ) = n := g32_int n (by rw [abs_of_nonneg (by omega)]; omega)
    have h1 : fl32 (1 : ℚ) = 1 := by exact_mod_cast g32_int 1 (by norm_num)
    have h2 : fl32 (x - y) ≤ 1 := by rw [← h1]; apply fl32_lawful.mono; linarith
    have h3 : -1 ≤ fl32 (x - y) := by rw [← h1, ← fl32_lawful.neg]; apply fl32_lawful.mono; linarith
    rw [e1] at hv
    have e2 : fl32 ((n + 1 : Int) : ℚ) = (n + 1 : Int) := g32_int (n + 1) (by rw [abs_of_nonneg (by omega)]; omega)
    have e3 : fl32 ((n - 1 : Int) : ℚ) = (n - 1 : Int) := g32_int (n - 1) (by rw [abs_le]; constructor <;> omega)
    push_cast at e2 e3
    rw [hv]
    constructor
    · rw [← e3]; apply fl32_lawful.mono; linarith
    · rw [← e2]; apply fl32_lawful.mono; linarith
  · cases h

/-- The range of a prediction, for every floating-point semantics. -/
theorem predict_range_any (lowest highest : F) (sps : Nat) (hyst : F) (p : PD F)
    (h : PHist lowest highest sps hyst p) :
    ∃ p' x, p.predictPeriod = .ok (p', x) ∧ (x = lit (-1) ∨ lt (ofInt p.minPeriod) x = true) := by
  have key : p.predictedPeriod = lit (-1) ∨ lt (ofInt p.minPeriod) p.predictedPeriod = true := by
    induction h with
    | mk h0 hw => left; exact (pd_mk_consts h0).2.2.2.1
    | @step p s p' b hp e ih =>
      have inv := phist_inv hp
      have hmin := (PD.step_post inv (H := fun _ => True) ⟨trivial, fun _ _ _ => trivial⟩ s _ e).2.1
      simp only at hmin
      have hpred : p'.predictedPeriod = lit (-1) ∨ p'.predictedPeriod = p.predictedPeriod := by
        obtain ⟨z', ez, iz, -⟩ := ZC.step_ok inv.bits.ok inv.inv s
        rw [PD.step, ez, PD.ok_bind] at e
        simp only [] at e
        generalize hp1 : (if (!z'.state && p.zc.state != z'.state) = true then
            { p with zc := z', edgeMark := p.edgeMark + 1, predictedPeriod := lit (-1) } else { p with zc := z' } : PD F) = p1 at e
        have h1 : p1.predictedPeriod = lit (-1) ∨ p1.predictedPeriod = p.predictedPeriod := by
          rw [← hp1]; split
          · exact Or.inl rfl
          · exact Or.inr rfl
        generalize hp2 : (if p1.zc.isReset = true then { p1 with fundamental := PInfo.default } else p1 : PD F) = p2 at e
        have h2 : p2.predictedPeriod = p1.predictedPeriod := by rw [← hp2]; split <;> rfl
        rw [← h2] at h1
        split at e
        · match e3 : p2.setBitstream, e with
          | .error _, e => cases e
          | .ok p3, e =>
            rw [PD.ok_bind] at e
            match e4 : p3.autocorrelate, e with
            | .error _, e => cases e
            | .ok p4, e =>
              injection e with e
              injection e with e5 e6
              subst e5
              have h3 : p3.predictedPeriod = p2.predictedPeriod := by
                rw [PD.setBitstream] at e3
                simp only [bind, Except.bind] at e3
                split at e3
                · cases e3
                · injection e3 with e3; rw [← e3]
              have h4 : p4.predictedPeriod = p3.predictedPeriod := by
                rw [PD.autocorrelate] at e4
                split at e4
                · cases e4
                · split at e4
                  · injection e4 with e4; rw [← e4]
                  · simp only [bind, Except.bind] at e4
                    split at e4
                    · cases e4
                    · split at e4
                      · injection e4 with e4; rw [← e4]
                      · split at e4
                        · cases e4
                        · injection e4 with e4; rw [← e4]
              rw [h4, h3]; exact h1
        · injection e with e
          injection e with e5 e6
          rw [← e5]; exact h1
      rw [hmin]
      rcases hpred with g | g
      · exact Or.inl g
      · rw [g]; exact ih
    | @predict p p' x hp e ih =>
      obtain ⟨h1, h2⟩ := C77_predict_rule p p' x e
      have hm : p'.minPeriod = p.minPeriod := by rw [h1]
      have hx : p'.predictedPeriod = x := by rw [h1]
      rw [hm, hx]
      split at h2
      · rcases h2.2 with ⟨i, j, a, b, -, -, -, -, -, hlt, -⟩ | ⟨g, -⟩
        · exact Or.inr hlt
        · rw [g]; exact ih
      · rw [h2.1]; exact ih
  have inv := phist_inv h
  obtain ⟨p', x, e⟩ := predictPeriod_total inv
  refine ⟨p', x, e, ?_⟩
  obtain ⟨h1, h2⟩ := C77_predict_rule p p' x e
  split at h2
  · rcases h2.2 with ⟨i, j, a, b, -, -, -, -, -, hlt, -⟩ | ⟨g, -⟩
    · exact Or.inr hlt
    · rw [g]; exact key
  · rw [h2.1]; exact key

/-- **C77** (single precision) At any point of any history of samples and predictions, asking for a prediction succeeds, and the answer
is either unknown (`-1`) or exceeds the minimum period, rounded to single precision. -/
theorem C77_predict_range_binary32 (lowest highest : F32) (sps : Nat) (hyst : F32) (p : PD F32)
    (h : PHist lowest highest sps hyst p) :
    ∃ p' x, p.predictPeriod = .ok (p', x) ∧ (x.val = -1 ∨ fl32 (p.minPeriod : ℚ) < x.val) := by
  obtain ⟨p', x, e, hx⟩ := predict_range_any lowest highest sps hyst p h
  refine ⟨p', x, e, ?_⟩
  rcases hx with hx | hx
  · left; rw [hx, g32_m1]
  · right
    rw [g32_lt] at hx
    have : (ofInt (p.minPeriod : Int) : F32).val = fl32 (p.minPeriod : ℚ) := by show fl32 ((p.minPeriod : Int) : ℚ) = _; rw [Int.cast_natCast]
    rwa [this] at hx

end Verif
