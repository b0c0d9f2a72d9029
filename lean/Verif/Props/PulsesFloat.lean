import Verif.Props.Pulses
import Verif.Props.PitchFloat
import Verif.Proof.RoundCompute
/-!
# Properties C72 and C75 in single precision: `zero_crossing`
-/
namespace Verif
open FloatOps Rounding
variable {F : Type} [FloatOps F]

theorem max32 (a b : F32) : (FloatOps.max a b).val = Max.max a.val b.val := by
  rw [FloatOps.max]
  by_cases h : a.val < b.val
  · rw [if_pos ((g32_lt _ _).2 h), max_eq_right h.le]
  · rw [if_neg (by rw [g32_lt]; exact h), max_eq_left (not_lt.1 h)]

theorem max32_mem (a b : F32) : FloatOps.max a b = a ∨ FloatOps.max a b = b := by
  rw [FloatOps.max]; split
  · exact Or.inr rfl
  · exact Or.inl rfl

theorem pos32 (s : F32) : (lt (lit 0) s = true) ↔ 0 < s.val := by rw [g32_lt, g32_zero]

theorem pulse_peak32 (s0 : F32) (h0 : 0 < s0.val) (tl : List F32) (k : Nat) (w : F32) :
    (∀ s ∈ s0 :: tl, s.val ≤ (pulseData (s0, w) k tl).1.val) ∧ (pulseData (s0, w) k tl).1 ∈ s0 :: tl := by
  induction tl using List.reverseRecOn with
  | nil => simp [pulseData]
  | append_singleton tl s ih =>
    rw [pulseData_snoc]
    generalize pulseData (s0, w) k tl = q at ih ⊢
    obtain ⟨p, v⟩ := q
    obtain ⟨i1, i2⟩ := ih
    have hp0 : 0 < p.val := lt_of_lt_of_le h0 (i1 s0 (by simp))
    simp only [pulseData]
    by_cases hs : 0 < s.val
    · rw [if_pos ((pos32 s).2 hs)]
      simp only []
      refine ⟨fun x hx => ?_, ?_⟩
      · rw [max32]
        simp only [List.mem_cons, List.mem_append, List.not_mem_nil, or_false] at hx
        rcases hx with rfl | hx | rfl
        · exact le_max_of_le_right (i1 _ (by simp))
        · exact le_max_of_le_right (i1 _ (by simp [hx]))
        · exact le_max_left _ _
      · rcases max32_mem s p with e | e <;> rw [e]
        · simp
        · simp only [List.mem_cons, List.mem_append] at i2 ⊢
          tauto
    · rw [if_neg (by rw [pos32]; exact hs)]
      simp only []
      refine ⟨fun x hx => ?_, ?_⟩
      · simp only [List.mem_cons, List.mem_append, List.not_mem_nil, or_false] at hx
        rcases hx with rfl | hx | rfl
        · exact i1 _ (by simp)
        · exact i1 _ (by simp [hx])
        · linarith [not_lt.1 hs]
      · simp only [List.mem_cons, List.mem_append] at i2 ⊢
        tauto

/-- Frame `k` of the pulse `l` is the end of its body: above zero but below 30% of some earlier (or the same)
sample of the pulse, where 0.3 and the product are rounded to single precision. -/
def Falls32 (l : List F32) (k : Nat) : Prop :=
  ∃ s, l[k]? = some s ∧ 0 < s.val ∧ ∃ m ∈ l.take (k + 1), s.val < fl32 (m.val * fl32 (3 / 10))

theorem falls32_append {l : List F32} {k : Nat} (h : k < l.length) (x : F32) : Falls32 (l ++ [x]) k ↔ Falls32 l k := by
  rw [Falls32, Falls32, List.getElem?_append_left h, List.take_append_of_le_length (by omega)]

theorem falls32_lt {l : List F32} {k : Nat} (h : Falls32 l k) : k < l.length := by
  obtain ⟨s, h, -⟩ := h
  by_contra hc
  rw [List.getElem?_eq_none (by omega)] at h
  cases h

theorem third_nonneg : 0 ≤ fl32 (3 / 10 : ℚ) := fl32_lawful.nonneg (by norm_num)
theorem third_le_one : fl32 (3 / 10 : ℚ) ≤ 1 := by
  have h1 : fl32 (1 : ℚ) = 1 := by exact_mod_cast g32_int 1 (by norm_num)
  rw [← h1]; apply fl32_lawful.mono; norm_num

theorem ofNat32_pos {k : Nat} (hk : 1 ≤ k) : 1 ≤ fl32 (k : ℚ) := by
  have h1 : fl32 (1 : ℚ) = 1 := by exact_mod_cast g32_int 1 (by norm_num)
  rw [← h1]; apply fl32_lawful.mono; exact_mod_cast hk

theorem pulse_width32 (s0 : F32) (h0 : 0 < s0.val) (hr : Rep 24 (-149) s0.val) (tl : List F32) :
    ((pulseData (s0, (lit 0 : F32)) 1 tl).2.val = 0 ∧ ∀ k, ¬ Falls32 (s0 :: tl) k) ∨
    ∃ k, 1 ≤ k ∧ Falls32 (s0 :: tl) k ∧ (∀ j, j < k → ¬ Falls32 (s0 :: tl) j) ∧ (pulseData (s0, (lit 0 : F32)) 1 tl).2.val = fl32 k := by
  induction tl using List.reverseRecOn with
  | nil =>
    left
    refine ⟨g32_zero, ?_⟩
    rintro k ⟨s, h1, h2, m, h3, h4⟩
    have hk := falls32_lt ⟨s, h1, h2, m, h3, h4⟩
    simp at hk
    subst hk
    simp at h1 h3
    subst h1 h3
    have := fl32_lawful.mono (m.val * fl32 (3 / 10)) m.val (by
      have := mul_le_mul_of_nonneg_left third_le_one h0.le
      linarith)
    rw [fl32_lawful.fix _ hr] at this
    linarith
  | append_singleton tl s ih =>
    have hpk := pulse_peak32 s0 h0 tl 1 (lit 0)
    rw [pulseData_snoc]
    generalize pulseData (s0, (lit 0 : F32)) 1 tl = q at ih hpk ⊢
    obtain ⟨p, v⟩ := q
    simp only [] at ih hpk
    have hp0 : 0 < p.val := lt_of_lt_of_le h0 (hpk.1 s0 (by simp))
    have hcons : s0 :: (tl ++ [s]) = (s0 :: tl) ++ [s] := rfl
    rw [hcons]
    have hlast : Falls32 ((s0 :: tl) ++ [s]) (tl.length + 1) ↔ 0 < s.val ∧ s.val < fl32 ((FloatOps.max s p).val * fl32 (3 / 10)) := by
      constructor
      · rintro ⟨x, h1, h2, m, h3, h4⟩
        rw [List.getElem?_append_right (by simp)] at h1
        simp at h1
        subst h1
        refine ⟨h2, lt_of_lt_of_le h4 ?_⟩
        have : m.val ≤ (FloatOps.max s p).val := by
          rw [max32]
          rw [List.take_of_length_le (by simp), List.mem_append] at h3
          rcases h3 with h3 | h3
          · exact le_max_of_le_right (hpk.1 _ h3)
          · simp at h3; rw [h3]; exact le_max_left _ _
        exact fl32_lawful.mono _ _ (mul_le_mul_of_nonneg_right this third_nonneg)
      · rintro ⟨h1, h2⟩
        refine ⟨s, by rw [List.getElem?_append_right (by simp)]; simp, h1, FloatOps.max s p, ?_, h2⟩
        rw [List.take_of_length_le (by simp), List.mem_append]
        rcases max32_mem s p with e | e <;> rw [e]
        · simp
        · exact Or.inl hpk.2
    have hlen : ∀ k, Falls32 ((s0 :: tl) ++ [s]) k → k < tl.length + 1 ∨ k = tl.length + 1 := by
      intro k hk
      have := falls32_lt hk
      simp at this
      omega
    have hmul : (mul (FloatOps.max s p) (lit (3 / 10)) : F32).val = fl32 ((FloatOps.max s p).val * fl32 (3 / 10)) := rfl
    rcases ih with ⟨hv, hno⟩ | ⟨k, k1, k2, k3, hv⟩
    · simp only [pulseData]
      by_cases hf : 0 < s.val ∧ s.val < fl32 ((FloatOps.max s p).val * fl32 (3 / 10))
      · right
        refine ⟨tl.length + 1, by omega, hlast.2 hf, ?_, ?_⟩
        · intro j hj hc
          exact hno j ((falls32_append (by simpa using hj) s).1 hc)
        · rw [if_pos ((pos32 s).2 hf.1)]
          simp only []
          rw [if_pos]
          · show fl32 ((((1 + tl.length : Nat) : Int)) : ℚ) = _
            congr 1; push_cast; ring
          · rw [Bool.and_eq_true, g32_eq, g32_zero, g32_lt, hmul]
            exact ⟨hv, hf.2⟩
      · left
        refine ⟨?_, ?_⟩
        · by_cases hs : 0 < s.val
          · rw [if_pos ((pos32 s).2 hs)]
            simp only []
            rw [if_neg]
            · exact hv
            · rw [Bool.and_eq_true, g32_eq, g32_zero, g32_lt, hmul]
              rintro ⟨-, hh⟩
              exact hf ⟨hs, hh⟩
          · rw [if_neg (by rw [pos32]; exact hs)]; exact hv
        · intro k hk
          rcases hlen k hk with h | rfl
          · exact hno k ((falls32_append (by simpa using h) s).1 hk)
          · exact hf (hlast.1 hk)
    · right
      have hkl := falls32_lt k2
      refine ⟨k, k1, (falls32_append hkl s).2 k2, ?_, ?_⟩
      · intro j hj hc
        exact k3 j hj ((falls32_append (by omega) s).1 hc)
      · simp only [pulseData]
        split
        · simp only []
          rw [if_neg]
          · exact hv
          · rw [Bool.and_eq_true, g32_eq, g32_zero]
            rintro ⟨hc, -⟩
            rw [hc] at hv
            have := ofNat32_pos k1
            linarith
        · exact hv

/-- The samples as the detector sees them in single precision: offset by half the hysteresis. -/
def seen32 (hyst : F32) (x : F32) : F32 := ⟨fl32 (x.val - fl32 (hyst.val / 2))⟩

theorem seen32_eq (hyst x : F32) : (add x (div (neg hyst) (lit 2)) : F32) = seen32 hyst x := by
  have : (add x (div (neg hyst) (lit 2)) : F32).val = fl32 (x.val + fl32 (-hyst.val / (lit 2 : F32).val)) := rfl
  have h2 : (add x (div (neg hyst) (lit 2)) : F32).val = (seen32 hyst x).val := by
    rw [this, g32_two, neg_div, fl32_lawful.neg, ← sub_eq_add_neg]; rfl
  cases ha : (add x (div (neg hyst) (lit 2)) : F32)
  rw [ha] at h2
  simp only at h2
  rw [h2]

/-- **C72** (single precision) The recorded peak of a stored pulse is its largest (offset) sample, and the
recorded width is the number of frames from the leading edge to the first sample of the pulse that is above
zero but below 30% of the peak so far (rounded; exact up to 2^24); it is zero if there is none. -/
theorem C72_peak_width_binary32 (hyst : F32) (w : Nat) (hw : w ≤ 2 ^ 27) (xs : List F32) (z : ZC F32) (ys : List Bool)
    (h : runC ZC.step (ZC.mk' hyst w) xs = .ok (z, ys)) (i : Nat) (hi : i < z.numEdges) :
    ∃ e, z.edge i = .ok e ∧
      let ss := xs.map (seen32 hyst)
      let o : Int := xs.length - (z.frame + if z.ready then (z.window / 2 : Nat) else 0)
      ∃ (a n : Nat) (l : List F32), o + e.leading = a ∧
        (a + n : Int) = (if z.state = true ∧ i + 1 = z.numEdges then (xs.length : Int) else o + e.trailing) ∧
        l = (ss.drop a).take n ∧ l.length = n ∧ 1 ≤ n ∧ (∀ s ∈ l.head?, 0 < s.val) ∧
        e.crossing = ((if a = 0 then lit 0 else (ss[a - 1]?).getD (lit 0)), l.headD (lit 0)) ∧
        e.peak ∈ l ∧ (∀ s ∈ l, s.val ≤ e.peak.val) ∧
        ((e.width.val = 0 ∧ ∀ k, ¬ Falls32 l k) ∨ ∃ k, 1 ≤ k ∧ Falls32 l k ∧ (∀ j, j < k → ¬ Falls32 l j) ∧ e.width.val = fl32 k) := by
  obtain ⟨e, he, a, n, s0, tl, h1, h2, h3, h4, h5, h6, h7⟩ := C72_pulse_data hyst w hw xs z ys h i hi
  have hss : (xs.map fun x => add x (div (neg hyst) (lit 2)) : List F32) = xs.map (seen32 hyst) :=
    List.map_congr_left fun x _ => seen32_eq hyst x
  rw [hss] at h3 h4 h6
  have h0 : 0 < s0.val := (pos32 s0).1 h5
  have hrep : Rep 24 (-149) s0.val := by
    have hm : s0 ∈ xs.map (seen32 hyst) := List.mem_of_mem_drop (List.mem_of_mem_take (by rw [h4]; simp))
    obtain ⟨x, -, rfl⟩ := List.mem_map.1 hm
    exact fl32_lawful.rep _
  have hp : e.peak = (pulseData (s0, (lit 0 : F32)) 1 tl).1 := congrArg Prod.fst h7
  have hwd : e.width = (pulseData (s0, (lit 0 : F32)) 1 tl).2 := congrArg Prod.snd h7
  have hpk := pulse_peak32 s0 h0 tl 1 (lit 0)
  have hnl : ((xs.map (seen32 hyst)).drop a |>.take n).length = n := by
    rw [List.length_take, List.length_drop]; omega
  refine ⟨e, he, a, n, s0 :: tl, h1, h2, h4.symm, by rw [← h4]; exact hnl, ?_, ?_, ?_, ?_, ?_, ?_⟩
  · rw [h4, List.length_cons] at hnl; omega
  · intro s hs; simp at hs; rw [← hs]; exact h0
  · rw [h6]
    cases a with
    | zero => rfl
    | succ a => rfl
  · rw [hp]; exact hpk.2
  · rw [hp]; exact hpk.1
  · rw [hwd]; exact pulse_width32 s0 h0 hrep tl

/-! ## C75 -/

/-- Invariant: the samples (offset) before and after the last shift. -/
def PkInv32 (z : ZC F32) (A B : List ℚ) : Prop :=
  z.peakUpdate.val = mx B ∧ (z.peak.val = mx A ∨ (mx A = 0 ∧ ∃ B', B' <+: B ∧ z.peak.val = mx B'))

theorem PkInv32.pulse {z : ZC F32} {A B : List ℚ} (h : PkInv32 z A B) : z.peakPulse.val = mx (A ++ B) := by
  obtain ⟨h1, h2⟩ := h
  rw [ZC.peakPulse, max32, h1, mx_append]
  rcases h2 with h2 | ⟨h2, B', ⟨C, rfl⟩, h3⟩
  · rw [h2]
  · rw [h3, h2, mx_append, max_eq_right (le_max_of_le_left (mx_spec B').1),
      max_eq_right (le_max_left _ _)]

theorem PkInv32.low {z : ZC F32} {A B : List ℚ} (h : PkInv32 z A B) {s : ℚ} (hs : s ≤ 0) : PkInv32 z A (B ++ [s]) := by
  obtain ⟨h1, h2⟩ := h
  refine ⟨?_, ?_⟩
  · rw [mx_snoc, max_eq_left (hs.trans (mx_spec B).1), h1]
  · rcases h2 with h2 | ⟨h2, B', h4, h3⟩
    · exact Or.inl h2
    · exact Or.inr ⟨h2, B', h4.trans (List.prefix_append _ _), h3⟩

theorem PkInv32.congr {z z' : ZC F32} {A B : List ℚ} (h : PkInv32 z A B) (h1 : z'.peakUpdate = z.peakUpdate)
    (h2 : z'.peak = z.peak) : PkInv32 z' A B := by
  rw [PkInv32, h1, h2]; exact h

theorem detect_pk32 {z z' : ZC F32} {A B : List ℚ} (h : PkInv32 z A B) {s : F32} (e : z.detect s = .ok z') :
    PkInv32 z' A (B ++ [s.val]) := by
  rw [ZC.detect] at e
  by_cases hs : 0 < s.val
  · rw [if_pos (by rw [pos32]; exact hs)] at e
    have key : ∀ z1 : ZC F32, z1.peak = z.peak → z1.peakUpdate = z.peakUpdate →
        PkInv32 { z1 with peakUpdate := if lt z1.peakUpdate s then s else z1.peakUpdate } A (B ++ [s.val]) := by
      intro z1 g1 g2
      obtain ⟨h1, h2⟩ := h
      refine ⟨?_, ?_⟩
      · show (if lt z1.peakUpdate s then s else z1.peakUpdate).val = _
        rw [mx_snoc, g2]
        by_cases hc : mx B < s.val
        · rw [if_pos (by rw [g32_lt, h1]; exact hc), max_eq_right hc.le]
        · rw [if_neg (by rw [g32_lt, h1]; exact hc), max_eq_left (not_lt.1 hc), h1]
      · show z1.peak.val = mx A ∨ (_ ∧ ∃ B', _ ∧ z1.peak.val = mx B')
        rw [g1]
        rcases h2 with h2 | ⟨h2, B', h4, h3⟩
        · exact Or.inl h2
        · exact Or.inr ⟨h2, B', h4.trans (List.prefix_append _ _), h3⟩
    by_cases hst : z.state = true
    · rw [if_neg (by simp [hst])] at e
      match e1 : z.info.get 0, e with
      | .error _, e => cases e
      | .ok ed, e =>
        simp only [bind, Except.bind] at e
        match e2 : z.info.assign 0 (ZC.updatePeak ed s z.frame), e with
        | .error _, e => cases e
        | .ok r, e =>
          injection e with e
          rw [← e]
          exact key { z with info := r } rfl rfl
    · rw [if_pos (by simp [hst])] at e
      split at e
      · simp only [bind, Except.bind] at e
        split at e
        · cases e
        · rename_i z1 hz1
          injection e with e
          rw [← e]
          split at hz1
          · cases hz1
          · injection hz1 with hz1
            exact key z1 (by rw [← hz1]) (by rw [← hz1])
      · cases e
  · rw [if_neg (by rw [pos32]; exact hs)] at e
    split at e
    · simp only [bind, Except.bind] at e
      split at e
      · cases e
      · split at e
        · cases e
        · injection e with e
          rw [← e]
          apply PkInv32.low _ (not_lt.1 hs)
          obtain ⟨h1, h2⟩ := h
          refine ⟨h1, ?_⟩
          show (if eq z.peak (lit 0) then z.peakUpdate else z.peak).val = mx A ∨ (_ ∧ ∃ B', _ ∧ (if eq z.peak (lit 0) then z.peakUpdate else z.peak).val = mx B')
          by_cases hz : z.peak.val = 0
          · rw [if_pos (by rw [g32_eq, g32_zero]; exact hz)]
            refine Or.inr ⟨?_, B, List.prefix_refl _, h1⟩
            rcases h2 with h2 | h2
            · rw [← h2, hz]
            · exact h2.1
          · rw [if_neg (by rw [g32_eq, g32_zero]; exact hz)]
            exact h2
    · injection e with e
      rw [← e]
      exact h.low (not_lt.1 hs)

theorem step_pk32 {z z' : ZC F32} {A B : List ℚ} (h : PkInv32 z A B) {x : F32} {b : Bool} (e : z.step x = .ok (z', b)) :
    let s := (add x (div z.hyst (lit 2)) : F32).val
    if z.ready = true then PkInv32 z' B [s] else PkInv32 z' A (B ++ [s]) := by
  intro s
  have hr1 : z.capReset.idleReset.ready = z.ready := by
    rw [ZC.idleReset]; split
    · show z.capReset.ready = _; rw [ZC.capReset]; split <;> rfl
    · rw [ZC.capReset]; split <;> rfl
  have hc1 : PkInv32 z.capReset.idleReset A B := by
    rw [ZC.idleReset]; split
    · rw [ZC.capReset]; split <;> exact h
    · rw [ZC.capReset]; split <;> exact h
  rw [ZC.step, ZC.updateState] at e
  simp only [bind, Except.bind] at e
  split at e
  · cases e
  rename_i z4 hz4
  split at hz4
  · cases hz4
  rename_i z2 hz2
  split at hz4
  · cases hz4
  rename_i z3 hz3
  injection hz4 with hz4
  injection e with e
  injection e with e1 e2
  have hfin : ∀ A' B', PkInv32 z3 A' B' → PkInv32 z' A' B' := by
    intro A' B' h3
    rw [← e1, ← hz4]
    have hl : PkInv32 { z3.lateReset with prev := add x (div z.hyst (lit 2)) } A' B' := by
      rw [ZC.lateReset]; split <;> exact h3
    rw [ZC.advance]
    split
    · simp only []; split <;> exact hl
    · exact hl
  have hcr : ∀ A' B', PkInv32 z2 A' B' → PkInv32 z2.capReset A' B' := by
    intro A' B' h2; rw [ZC.capReset]; split <;> exact h2
  rw [ZC.preShift, hr1] at hz2
  by_cases hr : z.ready = true
  · rw [if_pos hr]
    rw [if_pos hr] at hz2
    simp only [bind, Except.bind] at hz2
    split at hz2
    · cases hz2
    rename_i z1 hz1
    injection hz2 with hz2
    have hz1' : z1.peakUpdate = z.capReset.idleReset.peakUpdate := by
      rw [ZC.shift] at hz1
      simp only [bind, Except.bind] at hz1
      split at hz1
      · cases hz1
      split at hz1
      · cases hz1
      split at hz1
      · cases hz1
      injection hz1 with hz1
      rw [← hz1]
    have h2 : PkInv32 z2 B [] := by
      rw [← hz2]
      exact ⟨g32_zero, Or.inl (by show z1.peakUpdate.val = _; rw [hz1']; exact hc1.1)⟩
    exact hfin _ _ (detect_pk32 (hcr _ _ h2) hz3)
  · rw [if_neg hr]
    rw [if_neg hr] at hz2
    injection hz2 with hz2
    rw [← hz2] at hcr
    rw [← hz2] at hz3
    exact hfin _ _ (detect_pk32 (hcr _ _ hc1) hz3)

theorem run_pk32 {W : Nat} (hW : ZC.WOk W) {z : ZC F32} (hi : ZC.Inv W z) (tr0 : List (Bool × F32))
    (h : PkInv32 z ((lastTwo tr0).1.map (fun x => (add x (div z.hyst (lit 2)) : F32).val)) ((lastTwo tr0).2.map (fun x => (add x (div z.hyst (lit 2)) : F32).val))) (xs : List F32) (z' : ZC F32)
    (tr : List (Bool × F32)) (e : runC ZC.stepR z xs = .ok (z', tr)) :
    PkInv32 z' ((lastTwo (tr0 ++ tr)).1.map (fun x => (add x (div z.hyst (lit 2)) : F32).val)) ((lastTwo (tr0 ++ tr)).2.map (fun x => (add x (div z.hyst (lit 2)) : F32).val)) := by
  induction xs generalizing z tr0 tr with
  | nil =>
    injection e with e
    injection e with e1 e2
    subst e1 e2
    rw [List.append_nil]; exact h
  | cons x xs ih =>
    obtain ⟨z1, e1, i1, h1, -⟩ := ZC.step_ok hW hi x
    have e1' : ZC.stepR z x = .ok (z1, (z.ready, x)) := by rw [ZC.stepR, e1]; rfl
    rw [runC, e1'] at e
    simp only [bind, Except.bind] at e
    match e2 : runC ZC.stepR z1 xs, e with
    | .error _, e => cases e
    | .ok (z2, tr2), e =>
      injection e with e
      injection e with ea eb
      subst ea eb
      have hp := step_pk32 h e1
      have := ih i1 (tr0 ++ [(z.ready, x)]) (by
        rw [lastTwo_snoc, h1]
        by_cases hr : z.ready = true
        · rw [if_pos hr] at hp ⊢; exact hp
        · rw [if_neg hr] at hp ⊢; simpa using hp) tr2 e2
      rw [h1] at this
      simpa using this

/-- **C75** (single precision) `peak_pulse()` is the largest (offset) sample since the beginning of the previous window, where windows
begin with the calls made on a ready detector; zero if no sample was above zero. -/
theorem C75_peak_pulse_binary32 (hyst : F32) (w : Nat) (hw : w ≤ 2 ^ 27) (xs : List F32) (z : ZC F32) (tr : List (Bool × F32))
    (h : runC ZC.stepR (ZC.mk' hyst w) xs = .ok (z, tr)) :
    0 ≤ z.peakPulse.val ∧
    (∀ x ∈ (lastTwo tr).1 ++ (lastTwo tr).2, (seen32 hyst x).val ≤ z.peakPulse.val) ∧
    (z.peakPulse.val = 0 ∨ ∃ x ∈ (lastTwo tr).1 ++ (lastTwo tr).2, z.peakPulse.val = (seen32 hyst x).val) := by
  have key := run_pk32 (ZC.wok_adjust w hw) (ZC.inv_mk hyst w hw) [] ⟨g32_zero, Or.inl g32_zero⟩ xs z tr h
  rw [List.nil_append] at key
  rw [key.pulse, ← List.map_append]
  have hh : ∀ x : F32, (add x (div (ZC.mk' hyst w).hyst (lit 2)) : F32) = seen32 hyst x := fun x => seen32_eq hyst x
  simp only [hh]
  obtain ⟨h1, h2, h3⟩ := mx_spec (((lastTwo tr).1 ++ (lastTwo tr).2).map fun x => (seen32 hyst x).val)
  refine ⟨h1, fun x hx => h2 _ (List.mem_map.2 ⟨x, hx, rfl⟩), ?_⟩
  rcases h3 with h3 | h3
  · exact Or.inl h3
  · obtain ⟨x, hx, e⟩ := List.mem_map.1 h3
    exact Or.inr ⟨x, hx, e.symm⟩

/-- Runs the edge detector with hysteresis 2 and window 128. -/
def zcRun32 (i : FloatOps F32) (l : List ℚ) : C (ZC F32 × List Bool) :=
  @runC (ZC F32) F32 Bool (@ZC.step F32 i) (@ZC.mk' F32 i ⟨2⟩ 128) (l.map F32.mk)

theorem zcRun32_eq (l : List ℚ) : zcRun32 inferInstance l = zcRun32 f32c l := by rw [f32c_eq]

/-- A pulse falling below 30% of its peak two frames after its leading edge: width 2 (`C72_peak_width_binary32`, `C75_peak_pulse_binary32`). -/
example : (zcRun32 inferInstance [0, 2, 11, 3, 2, -5]).toOption.map
    (fun r => (r.1.numEdges, r.1.info.get 0 |>.toOption.map fun e => (e.leading, e.trailing, e.peak.val, e.width.val))) =
    some (1, some (1, 5, 10, 2)) := by rw [zcRun32_eq]; decide +kernel

end Verif
