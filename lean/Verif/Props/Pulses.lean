import Mathlib.Tactic.Linarith
import Mathlib.Data.List.Induction
import Mathlib.Tactic.Ring
import Verif.Proof.Pulses
import Verif.Props.ZeroCrossing
/-!
# Properties C72 (data recorded with each pulse) and C75 (`peak_pulse`): `zero_crossing`

`pulseData` and `sampleBefore` (Proof/Pulses.lean) are specification functions on lists of samples.
-/
namespace Verif
open FloatOps
variable {F : Type} [FloatOps F]

/-- **C72** The data recorded with an edge.  Feed any signal; let `ss` be the samples offset by half the
hysteresis, and `o` the absolute time of frame 0 as in `C72_edges_are_pulses`.  For every stored edge, let
`l` be the samples from its leading edge up to (excluding) its trailing edge, or up to now if the pulse is
still going on.  Then the first sample of `l` is above zero, the crossing data are the sample just before the
pulse (zero if there is none) and the first of the pulse, and the peak and the width are those of `l` as
specified by `pulseData`. -/
theorem C72_pulse_data (hyst : F) (w : Nat) (hw : w ≤ 2 ^ 27) (xs : List F) (z : ZC F) (ys : List Bool)
    (h : runC ZC.step (ZC.mk' hyst w) xs = .ok (z, ys)) (i : Nat) (hi : i < z.numEdges) :
    ∃ e, z.edge i = .ok e ∧
      let ss := xs.map fun x => add x (div (neg hyst) (lit 2))
      let o : Int := xs.length - (z.frame + if z.ready then (z.window / 2 : Nat) else 0)
      ∃ (a n : Nat) (s0 : F) (tl : List F), o + e.leading = a ∧
        (a + n : Int) = (if z.state = true ∧ i + 1 = z.numEdges then (xs.length : Int) else o + e.trailing) ∧
        a + n ≤ ss.length ∧ (ss.drop a).take n = s0 :: tl ∧ lt (lit 0) s0 = true ∧
        e.crossing = (sampleBefore ss a, s0) ∧ (e.peak, e.width) = pulseData (s0, lit 0) 1 tl := by
  obtain ⟨z', ys', e', -, inv, -, -⟩ := ZC.run_ok (ZC.wok_adjust w hw) (ZC.inv_mk hyst w hw)
    (by simp [ZC.edges, ZC.mk']) xs
  rw [h] at e'
  injection e' with e'
  injection e' with e1 e2
  subst e1 e2
  have he0 : (ZC.mk' hyst w).edges = [] := by simp [ZC.edges, ZC.mk']
  obtain ⟨hf, hr⟩ := ZC.run_rec (ZC.wok_adjust w hw) (ZC.inv_mk hyst w hw) (hy := hyst) rfl [] rfl
    (by simp [ZC.vframe, ZC.mk']) (by rw [he0]; exact recAll_nil _ _ _) xs z ys h
  rw [List.nil_append] at hf hr
  have hsl : (ZC.offsetBy hyst xs).length = xs.length := by simp [ZC.offsetBy]
  have hlen := inv.toRep.edges_length
  obtain ⟨k, hk⟩ : ∃ k, k = z.numEdges - 1 - i := ⟨_, rfl⟩
  have hkl : k < z.edges.length := by omega
  refine ⟨z.edges[k], by rw [ZC.edge_ok inv.toRep i hi]; simp only [hk], ?_⟩
  have hv : (z.frame + if z.ready then (z.window / 2 : Nat) else 0 : Int) = z.vframe := rfl
  simp only [hv]
  rw [hsl] at hr
  have key : Rec (ZC.offsetBy hyst xs) (xs.length - z.vframe) z.edges[k]
      (if z.state = true ∧ i + 1 = z.numEdges then (xs.length : Int) else xs.length - z.vframe + z.edges[k].trailing) := by
    split
    · rename_i hc
      rw [hc.1] at hr
      have hk0 : k = 0 := by omega
      subst hk0
      have := ZC.recAll_open hr hkl
      rw [hsl] at this
      exact this
    · rename_i hc
      exact ZC.recAll_closed hr k hkl (fun hs => by
        by_contra hk0; exact hc ⟨hs, by omega⟩)
  obtain ⟨a, s0, tl, g0, g1, g2, g3, g4, g5⟩ := key
  have hl := g3.length_le
  rw [List.length_cons, List.length_drop] at hl
  refine ⟨a, tl.length + 1, s0, tl, g1, ?_, ?_, ?_, g0, g5, g4⟩
  · rw [g2]
  · show a + (tl.length + 1) ≤ (ZC.offsetBy hyst xs).length; omega
  · have := List.prefix_iff_eq_take.1 g3
    rw [List.length_cons] at this
    exact this.symm

/-! ## In exact arithmetic -/

theorem rat_max (a b : ℚ) : FloatOps.max a b = Max.max a b := by
  rw [FloatOps.max]
  by_cases h : a < b
  · rw [if_pos (by simpa [FloatOps.lt] using h), max_eq_right h.le]
  · rw [if_neg (by simpa [FloatOps.lt] using h), max_eq_left (not_lt.1 h)]

theorem pulse_peak (s0 : ℚ) (h0 : 0 < s0) (tl : List ℚ) (k : Nat) (w : ℚ) :
    (∀ s ∈ s0 :: tl, s ≤ (pulseData (s0, w) k tl).1) ∧ (pulseData (s0, w) k tl).1 ∈ s0 :: tl := by
  induction tl using List.reverseRecOn with
  | nil => simp [pulseData]
  | append_singleton tl s ih =>
    rw [pulseData_snoc]
    generalize pulseData (s0, w) k tl = q at ih ⊢
    obtain ⟨p, v⟩ := q
    obtain ⟨i1, i2⟩ := ih
    have hp0 : 0 < p := lt_of_lt_of_le h0 (i1 s0 (by simp))
    simp only [pulseData]
    by_cases hs : 0 < s
    · rw [if_pos (by simpa [FloatOps.lt, FloatOps.lit] using hs), rat_max]
      simp only []
      refine ⟨fun x hx => ?_, ?_⟩
      · simp only [List.mem_cons, List.mem_append, List.not_mem_nil, or_false] at hx
        rcases hx with rfl | hx | rfl
        · exact le_max_of_le_right (i1 _ (by simp))
        · exact le_max_of_le_right (i1 _ (by simp [hx]))
        · exact le_max_left _ _
      · rcases max_choice s p with e | e <;> rw [e]
        · simp
        · simp only [List.mem_cons, List.mem_append] at i2 ⊢
          tauto
    · rw [if_neg (by simpa [FloatOps.lt, FloatOps.lit] using hs)]
      simp only []
      refine ⟨fun x hx => ?_, ?_⟩
      · simp only [List.mem_cons, List.mem_append, List.not_mem_nil, or_false] at hx
        rcases hx with rfl | hx | rfl
        · exact i1 _ (by simp)
        · exact i1 _ (by simp [hx])
        · linarith [not_lt.1 hs]
      · simp only [List.mem_cons, List.mem_append] at i2 ⊢
        tauto

/-- Frame `k` of the pulse `l` is the end of its body: above zero but below 30% of some earlier (or the same)
sample of the pulse. -/
def Falls (l : List ℚ) (k : Nat) : Prop :=
  ∃ s, l[k]? = some s ∧ 0 < s ∧ ∃ m ∈ l.take (k + 1), s < 3 / 10 * m

theorem falls_append {l : List ℚ} {k : Nat} (h : k < l.length) (x : ℚ) : Falls (l ++ [x]) k ↔ Falls l k := by
  rw [Falls, Falls, List.getElem?_append_left h, List.take_append_of_le_length (by omega)]

theorem falls_lt {l : List ℚ} {k : Nat} (h : Falls l k) : k < l.length := by
  obtain ⟨s, h, -⟩ := h
  by_contra hc
  rw [List.getElem?_eq_none (by omega)] at h
  cases h

theorem pulse_width (s0 : ℚ) (h0 : 0 < s0) (tl : List ℚ) :
    ((pulseData (s0, (0 : ℚ)) 1 tl).2 = 0 ∧ ∀ k, ¬ Falls (s0 :: tl) k) ∨
    ∃ k, 1 ≤ k ∧ Falls (s0 :: tl) k ∧ (∀ j, j < k → ¬ Falls (s0 :: tl) j) ∧ (pulseData (s0, (0 : ℚ)) 1 tl).2 = k := by
  induction tl using List.reverseRecOn with
  | nil =>
    left
    refine ⟨rfl, ?_⟩
    rintro k ⟨s, h1, h2, m, h3, h4⟩
    have hk := falls_lt ⟨s, h1, h2, m, h3, h4⟩
    simp at hk
    subst hk
    simp at h1 h3
    subst h1 h3
    linarith
  | append_singleton tl s ih =>
    have hpk := pulse_peak s0 h0 tl 1 0
    rw [pulseData_snoc]
    generalize pulseData (s0, (0 : ℚ)) 1 tl = q at ih hpk ⊢
    obtain ⟨p, v⟩ := q
    simp only [] at ih hpk
    have hp0 : 0 < p := lt_of_lt_of_le h0 (hpk.1 s0 (by simp))
    have hcons : s0 :: (tl ++ [s]) = (s0 :: tl) ++ [s] := rfl
    rw [hcons]
    have hlast : Falls ((s0 :: tl) ++ [s]) (tl.length + 1) ↔ 0 < s ∧ s < 3 / 10 * Max.max s p := by
      constructor
      · rintro ⟨x, h1, h2, m, h3, h4⟩
        rw [List.getElem?_append_right (by simp)] at h1
        simp at h1
        subst h1
        refine ⟨h2, lt_of_lt_of_le h4 ?_⟩
        have : m ≤ Max.max s p := by
          rw [List.take_of_length_le (by simp), List.mem_append] at h3
          rcases h3 with h3 | h3
          · exact le_max_of_le_right (hpk.1 _ h3)
          · simp at h3; rw [h3]; exact le_max_left _ _
        linarith
      · rintro ⟨h1, h2⟩
        refine ⟨s, by rw [List.getElem?_append_right (by simp)]; simp, h1, Max.max s p, ?_, h2⟩
        rw [List.take_of_length_le (by simp), List.mem_append]
        rcases max_choice s p with e | e <;> rw [e]
        · simp
        · exact Or.inl hpk.2
    have hlen : ∀ k, Falls ((s0 :: tl) ++ [s]) k → k < tl.length + 1 ∨ k = tl.length + 1 := by
      intro k hk
      have := falls_lt hk
      simp at this
      omega
    rcases ih with ⟨hv, hno⟩ | ⟨k, k1, k2, k3, hv⟩
    · simp only [pulseData, hv]
      by_cases hf : 0 < s ∧ s < 3 / 10 * Max.max s p
      · right
        refine ⟨tl.length + 1, by omega, hlast.2 hf, ?_, ?_⟩
        · intro j hj hc
          exact hno j ((falls_append (by simpa using hj) s).1 hc)
        · rw [if_pos (by simpa [FloatOps.lt, FloatOps.lit] using hf.1), rat_max]
          simp only []
          rw [if_pos]
          · show (((1 + tl.length : Nat) : Int) : ℚ) = _
            push_cast; ring
          · simp only [FloatOps.eq, FloatOps.lt, FloatOps.mul, FloatOps.lit, id, Bool.and_eq_true, decide_eq_true_eq]
            exact ⟨trivial, by linarith [hf.2]⟩
      · left
        refine ⟨?_, ?_⟩
        · by_cases hs : 0 < s
          · rw [if_pos (by simpa [FloatOps.lt, FloatOps.lit] using hs), rat_max]
            simp only []
            rw [if_neg]
            simp only [FloatOps.eq, FloatOps.lt, FloatOps.mul, FloatOps.lit, id, Bool.and_eq_true, decide_eq_true_eq]
            rintro ⟨-, hh⟩
            exact hf ⟨hs, by linarith⟩
          · rw [if_neg (by simpa [FloatOps.lt, FloatOps.lit] using hs)]
        · intro k hk
          rcases hlen k hk with h | rfl
          · exact hno k ((falls_append (by simpa using h) s).1 hk)
          · exact hf (hlast.1 hk)
    · right
      have hkl := falls_lt k2
      refine ⟨k, k1, (falls_append hkl s).2 k2, ?_, ?_⟩
      · intro j hj hc
        exact k3 j hj ((falls_append (by omega) s).1 hc)
      · simp only [pulseData]
        split
        · simp only []
          rw [if_neg]
          · exact hv
          · simp only [FloatOps.eq, FloatOps.lit, id, Bool.and_eq_true, decide_eq_true_eq]
            rintro ⟨hc, -⟩
            rw [hc] at hv
            have : (k : ℚ) = 0 := hv.symm
            have : k = 0 := by exact_mod_cast this
            omega
        · exact hv

/-- **C72** In exact arithmetic the recorded peak of a stored pulse is its largest (offset) sample, and the
recorded width is the number of frames from the leading edge to the first sample of the pulse that is above
zero but below 30% of the peak so far; it is zero if there is none. -/
theorem C72_peak_width (hyst : ℚ) (w : Nat) (hw : w ≤ 2 ^ 27) (xs : List ℚ) (z : ZC ℚ) (ys : List Bool)
    (h : runC ZC.step (ZC.mk' hyst w) xs = .ok (z, ys)) (i : Nat) (hi : i < z.numEdges) :
    ∃ e, z.edge i = .ok e ∧
      let ss := xs.map fun x => x - hyst / 2
      let o : Int := xs.length - (z.frame + if z.ready then (z.window / 2 : Nat) else 0)
      ∃ (a n : Nat) (l : List ℚ), o + e.leading = a ∧
        (a + n : Int) = (if z.state = true ∧ i + 1 = z.numEdges then (xs.length : Int) else o + e.trailing) ∧
        l = (ss.drop a).take n ∧ l.length = n ∧ 1 ≤ n ∧ (∀ s ∈ l.head?, 0 < s) ∧
        e.crossing = ((if a = 0 then 0 else (ss[a - 1]?).getD 0), l.headD 0) ∧
        e.peak ∈ l ∧ (∀ s ∈ l, s ≤ e.peak) ∧
        ((e.width = 0 ∧ ∀ k, ¬ Falls l k) ∨ ∃ k, 1 ≤ k ∧ Falls l k ∧ (∀ j, j < k → ¬ Falls l j) ∧ e.width = k) := by
  obtain ⟨e, he, a, n, s0, tl, h1, h2, h3, h4, h5, h6, h7⟩ := C72_pulse_data hyst w hw xs z ys h i hi
  have hss : (xs.map fun x => add x (div (neg hyst) (lit 2)) : List ℚ) = xs.map fun x => x - hyst / 2 := by
    apply List.map_congr_left
    intro x _
    show x + (-hyst) / 2 = x - hyst / 2
    ring
  rw [hss] at h3 h4 h6
  have h0 : 0 < s0 := by simpa [FloatOps.lt, FloatOps.lit] using h5
  have hp : e.peak = (pulseData (s0, (0 : ℚ)) 1 tl).1 := congrArg Prod.fst h7
  have hwd : e.width = (pulseData (s0, (0 : ℚ)) 1 tl).2 := congrArg Prod.snd h7
  have hpk := pulse_peak s0 h0 tl 1 0
  have hnl : ((xs.map fun x => x - hyst / 2).drop a |>.take n).length = n := by
    rw [List.length_take, List.length_drop]; omega
  refine ⟨e, he, a, n, s0 :: tl, h1, h2, h4.symm, by rw [← h4]; exact hnl, ?_, ?_, ?_, ?_, ?_, ?_⟩
  · rw [h4, List.length_cons] at hnl; omega
  · intro s hs; simp at hs; rw [← hs]; exact h0
  · rw [h6]
    cases a with
    | zero => rfl
    | succ a => rfl
  · rw [hp]; exact hpk.2
  · rw [hp]; exact hpk.1
  · rw [hwd]; exact pulse_width s0 h0 tl

/-! ## C75: `peak_pulse()` -/

/-- A call of the detector, together with a record of whether the detector was ready before the call, and of the
sample. -/
def ZC.stepR (z : ZC F) (x : F) : C (ZC F × (Bool × F)) := do
  let r ← z.step x
  return (r.1, (z.ready, x))

/-- Specification: the samples since the last call made on a ready detector (included), and those between the
previous such call and that one; from such a record, oldest first. -/
def lastTwo : List (Bool × F) → List F × List F :=
  List.foldl (fun ab rx => if rx.1 then (ab.2, [rx.2]) else (ab.1, ab.2 ++ [rx.2])) ([], [])

/-- The largest of zero and the elements of a list. -/
def mx (l : List ℚ) : ℚ := l.foldl Max.max 0

theorem mx_snoc (l : List ℚ) (s : ℚ) : mx (l ++ [s]) = Max.max (mx l) s := by
  rw [mx, List.foldl_append]; rfl

theorem mx_spec (l : List ℚ) : 0 ≤ mx l ∧ (∀ s ∈ l, s ≤ mx l) ∧ (mx l = 0 ∨ mx l ∈ l) := by
  induction l using List.reverseRecOn with
  | nil => exact ⟨le_refl _, by simp, Or.inl rfl⟩
  | append_singleton l s ih =>
    obtain ⟨h1, h2, h3⟩ := ih
    rw [mx_snoc]
    refine ⟨le_max_of_le_left h1, ?_, ?_⟩
    · intro x hx
      rw [List.mem_append] at hx
      rcases hx with hx | hx
      · exact le_max_of_le_left (h2 x hx)
      · simp at hx; rw [hx]; exact le_max_right _ _
    · rcases max_choice (mx l) s with e | e <;> rw [e]
      · rcases h3 with h3 | h3
        · exact Or.inl h3
        · exact Or.inr (by simp [h3])
      · exact Or.inr (by simp)

theorem mx_append (a b : List ℚ) : mx (a ++ b) = Max.max (mx a) (mx b) := by
  induction b using List.reverseRecOn with
  | nil => rw [List.append_nil]; exact (max_eq_left (mx_spec a).1).symm
  | append_singleton b s ih => rw [← List.append_assoc, mx_snoc, ih, mx_snoc, max_assoc]

/-- Invariant: the samples (offset) before and after the last shift. -/
def PkInv (z : ZC ℚ) (A B : List ℚ) : Prop :=
  z.peakUpdate = mx B ∧ (z.peak = mx A ∨ (mx A = 0 ∧ ∃ B', B' <+: B ∧ z.peak = mx B'))

theorem PkInv.pulse {z : ZC ℚ} {A B : List ℚ} (h : PkInv z A B) : z.peakPulse = mx (A ++ B) := by
  obtain ⟨h1, h2⟩ := h
  rw [ZC.peakPulse, rat_max, h1, mx_append]
  rcases h2 with h2 | ⟨h2, B', ⟨C, rfl⟩, h3⟩
  · rw [h2]
  · rw [h3, h2, mx_append, max_eq_right (le_max_of_le_left (mx_spec B').1),
      max_eq_right (le_max_left _ _)]

theorem PkInv.low {z : ZC ℚ} {A B : List ℚ} (h : PkInv z A B) {s : ℚ} (hs : s ≤ 0) : PkInv z A (B ++ [s]) := by
  obtain ⟨h1, h2⟩ := h
  refine ⟨?_, ?_⟩
  · rw [mx_snoc, max_eq_left (hs.trans (mx_spec B).1), h1]
  · rcases h2 with h2 | ⟨h2, B', h4, h3⟩
    · exact Or.inl h2
    · exact Or.inr ⟨h2, B', h4.trans (List.prefix_append _ _), h3⟩

theorem PkInv.congr {z z' : ZC ℚ} {A B : List ℚ} (h : PkInv z A B) (h1 : z'.peakUpdate = z.peakUpdate)
    (h2 : z'.peak = z.peak) : PkInv z' A B := by
  rw [PkInv, h1, h2]; exact h

theorem detect_pk {z z' : ZC ℚ} {A B : List ℚ} (h : PkInv z A B) {s : ℚ} (e : z.detect s = .ok z') :
    PkInv z' A (B ++ [s]) := by
  rw [ZC.detect] at e
  by_cases hs : 0 < s
  · rw [if_pos (by simpa [FloatOps.lt, FloatOps.lit] using hs)] at e
    have key : ∀ z1 : ZC ℚ, z1.peak = z.peak → z1.peakUpdate = z.peakUpdate →
        PkInv { z1 with peakUpdate := if lt z1.peakUpdate s then s else z1.peakUpdate } A (B ++ [s]) := by
      intro z1 g1 g2
      obtain ⟨h1, h2⟩ := h
      refine ⟨?_, ?_⟩
      · show (if lt z1.peakUpdate s then s else z1.peakUpdate) = _
        rw [mx_snoc, g2, h1]
        by_cases hc : mx B < s
        · rw [if_pos (by simpa [FloatOps.lt] using hc), max_eq_right hc.le]
        · rw [if_neg (by simpa [FloatOps.lt] using hc), max_eq_left (not_lt.1 hc)]
      · show z1.peak = mx A ∨ (_ ∧ ∃ B', _ ∧ z1.peak = mx B')
        rw [g1]
        rcases h2 with h2 | ⟨h2, B', h4, h3⟩
        · exact Or.inl h2
        · exact Or.inr ⟨h2, B', h4.trans (List.prefix_append _ _), h3⟩
    by_cases hst : z.state = true
    · rw [if_neg (by simp [hst])] at e
      match e1 : z.info.get 0, e with
      | .error _, e => cases e
      | .ok ed, e =>
        simp only [bind, Except.bind] at e
        match e2 : z.info.assign 0 (ZC.updatePeak ed s z.frame), e with
        | .error _, e => cases e
        | .ok r, e =>
          injection e with e
          rw [← e]
          exact key { z with info := r } rfl rfl
    · rw [if_pos (by simp [hst])] at e
      split at e
      · simp only [bind, Except.bind] at e
        split at e
        · cases e
        · rename_i z1 hz1
          injection e with e
          rw [← e]
          split at hz1
          · cases hz1
          · injection hz1 with hz1
            exact key z1 (by rw [← hz1]) (by rw [← hz1])
      · cases e
  · rw [if_neg (by simpa [FloatOps.lt, FloatOps.lit] using hs)] at e
    split at e
    · simp only [bind, Except.bind] at e
      split at e
      · cases e
      · split at e
        · cases e
        · injection e with e
          rw [← e]
          apply PkInv.low _ (not_lt.1 hs)
          obtain ⟨h1, h2⟩ := h
          refine ⟨h1, ?_⟩
          show (if eq z.peak (lit 0) then z.peakUpdate else z.peak) = mx A ∨ (_ ∧ ∃ B', _ ∧ (if eq z.peak (lit 0) then z.peakUpdate else z.peak) = mx B')
          by_cases hz : z.peak = 0
          · rw [if_pos (by simpa [FloatOps.eq, FloatOps.lit] using hz)]
            refine Or.inr ⟨?_, B, List.prefix_refl _, h1⟩
            rcases h2 with h2 | h2
            · rw [← h2, hz]
            · exact h2.1
          · rw [if_neg (by simpa [FloatOps.eq, FloatOps.lit] using hz)]
            exact h2
    · injection e with e
      rw [← e]
      exact h.low (not_lt.1 hs)

theorem step_pk {z z' : ZC ℚ} {A B : List ℚ} (h : PkInv z A B) {x : ℚ} {b : Bool} (e : z.step x = .ok (z', b)) :
    let s := x + z.hyst / 2
    if z.ready = true then PkInv z' B [s] else PkInv z' A (B ++ [s]) := by
  intro s
  have hr1 : z.capReset.idleReset.ready = z.ready := by
    rw [ZC.idleReset]; split
    · show z.capReset.ready = _; rw [ZC.capReset]; split <;> rfl
    · rw [ZC.capReset]; split <;> rfl
  have hc1 : PkInv z.capReset.idleReset A B := by
    rw [ZC.idleReset]; split
    · rw [ZC.capReset]; split <;> exact h
    · rw [ZC.capReset]; split <;> exact h
  rw [ZC.step, ZC.updateState] at e
  simp only [bind, Except.bind] at e
  split at e
  · cases e
  rename_i z4 hz4
  split at hz4
  · cases hz4
  rename_i z2 hz2
  split at hz4
  · cases hz4
  rename_i z3 hz3
  injection hz4 with hz4
  injection e with e
  injection e with e1 e2
  have hfin : ∀ A' B', PkInv z3 A' B' → PkInv z' A' B' := by
    intro A' B' h3
    rw [← e1, ← hz4]
    have hl : PkInv { z3.lateReset with prev := add x (div z.hyst (lit 2)) } A' B' := by
      rw [ZC.lateReset]; split <;> exact h3
    rw [ZC.advance]
    split
    · simp only []; split <;> exact hl
    · exact hl
  have hcr : ∀ A' B', PkInv z2 A' B' → PkInv z2.capReset A' B' := by
    intro A' B' h2; rw [ZC.capReset]; split <;> exact h2
  rw [ZC.preShift, hr1] at hz2
  by_cases hr : z.ready = true
  · rw [if_pos hr]
    rw [if_pos hr] at hz2
    simp only [bind, Except.bind] at hz2
    split at hz2
    · cases hz2
    rename_i z1 hz1
    injection hz2 with hz2
    have hz1' : z1.peakUpdate = z.capReset.idleReset.peakUpdate := by
      rw [ZC.shift] at hz1
      simp only [bind, Except.bind] at hz1
      split at hz1
      · cases hz1
      split at hz1
      · cases hz1
      split at hz1
      · cases hz1
      injection hz1 with hz1
      rw [← hz1]
    have h2 : PkInv z2 B [] := by
      rw [← hz2]
      exact ⟨rfl, Or.inl (by show z1.peakUpdate = _; rw [hz1']; exact hc1.1)⟩
    exact hfin _ _ (detect_pk (hcr _ _ h2) hz3)
  · rw [if_neg hr]
    rw [if_neg hr] at hz2
    injection hz2 with hz2
    rw [← hz2] at hcr
    rw [← hz2] at hz3
    exact hfin _ _ (detect_pk (hcr _ _ hc1) hz3)

omit [FloatOps F] in
theorem lastTwo_snoc (l : List (Bool × F)) (r : Bool × F) :
    lastTwo (l ++ [r]) = if r.1 then ((lastTwo l).2, [r.2]) else ((lastTwo l).1, (lastTwo l).2 ++ [r.2]) := by
  rw [lastTwo, List.foldl_append]; rfl

theorem run_pk {W : Nat} (hW : ZC.WOk W) {z : ZC ℚ} (hi : ZC.Inv W z) (tr0 : List (Bool × ℚ))
    (h : PkInv z ((lastTwo tr0).1.map (· + z.hyst / 2)) ((lastTwo tr0).2.map (· + z.hyst / 2))) (xs : List ℚ) (z' : ZC ℚ)
    (tr : List (Bool × ℚ)) (e : runC ZC.stepR z xs = .ok (z', tr)) :
    PkInv z' ((lastTwo (tr0 ++ tr)).1.map (· + z.hyst / 2)) ((lastTwo (tr0 ++ tr)).2.map (· + z.hyst / 2)) := by
  induction xs generalizing z tr0 tr with
  | nil =>
    injection e with e
    injection e with e1 e2
    subst e1 e2
    rw [List.append_nil]; exact h
  | cons x xs ih =>
    obtain ⟨z1, e1, i1, h1, -⟩ := ZC.step_ok hW hi x
    have e1' : ZC.stepR z x = .ok (z1, (z.ready, x)) := by rw [ZC.stepR, e1]; rfl
    rw [runC, e1'] at e
    simp only [bind, Except.bind] at e
    match e2 : runC ZC.stepR z1 xs, e with
    | .error _, e => cases e
    | .ok (z2, tr2), e =>
      injection e with e
      injection e with ea eb
      subst ea eb
      have hp := step_pk h e1
      have := ih i1 (tr0 ++ [(z.ready, x)]) (by
        rw [lastTwo_snoc, h1]
        by_cases hr : z.ready = true
        · rw [if_pos hr] at hp ⊢; exact hp
        · rw [if_neg hr] at hp ⊢; simpa using hp) tr2 e2
      rw [h1] at this
      simpa using this

/-- **C75** `peak_pulse()` is the largest (offset) sample since the beginning of the previous window, where windows
begin with the calls made on a ready detector; zero if no sample was above zero.  Feed any signal, recording
before each call whether the detector is ready (exact arithmetic). -/
theorem C75_peak_pulse (hyst : ℚ) (w : Nat) (hw : w ≤ 2 ^ 27) (xs : List ℚ) (z : ZC ℚ) (tr : List (Bool × ℚ))
    (h : runC ZC.stepR (ZC.mk' hyst w) xs = .ok (z, tr)) :
    0 ≤ z.peakPulse ∧
    (∀ x ∈ (lastTwo tr).1 ++ (lastTwo tr).2, x - hyst / 2 ≤ z.peakPulse) ∧
    (z.peakPulse = 0 ∨ ∃ x ∈ (lastTwo tr).1 ++ (lastTwo tr).2, z.peakPulse = x - hyst / 2) := by
  have key := run_pk (ZC.wok_adjust w hw) (ZC.inv_mk hyst w hw) [] ⟨rfl, Or.inl rfl⟩ xs z tr h
  rw [List.nil_append] at key
  rw [key.pulse, ← List.map_append]
  have hh : ∀ x : ℚ, x + (ZC.mk' hyst w).hyst / 2 = x - hyst / 2 := by
    intro x; show x + (-hyst) / 2 = _; ring
  simp only [hh]
  obtain ⟨h1, h2, h3⟩ := mx_spec (((lastTwo tr).1 ++ (lastTwo tr).2).map (· - hyst / 2))
  refine ⟨h1, fun x hx => h2 _ (List.mem_map.2 ⟨x, hx, rfl⟩), ?_⟩
  rcases h3 with h3 | h3
  · exact Or.inl h3
  · obtain ⟨x, hx, e⟩ := List.mem_map.1 h3
    exact Or.inr ⟨x, hx, e.symm⟩

/-- The record of a run always exists: the calls are those of the detector. -/
theorem C75_run (hyst : F) (w : Nat) (hw : w ≤ 2 ^ 27) (xs : List F) :
    ∃ z tr ys, runC ZC.stepR (ZC.mk' hyst w) xs = .ok (z, tr) ∧ runC ZC.step (ZC.mk' hyst w) xs = .ok (z, ys) ∧
      tr.map Prod.snd = xs := by
  have hi := ZC.inv_mk hyst w hw
  generalize ZC.mk' hyst w = z at hi
  induction xs generalizing z with
  | nil => exact ⟨z, [], [], rfl, rfl, rfl⟩
  | cons x xs ih =>
    obtain ⟨z1, e1, i1, h1, -⟩ := ZC.step_ok (ZC.wok_adjust w hw) hi x
    have e1' : ZC.stepR z x = .ok (z1, (z.ready, x)) := by rw [ZC.stepR, e1]; rfl
    obtain ⟨z2, tr, ys, k1, k2, k3⟩ := ih z1 i1
    refine ⟨z2, (z.ready, x) :: tr, z1.state :: ys, ?_, ?_, by simp [k3]⟩
    · rw [runC, e1']; simp only [bind, Except.bind, k1]; rfl
    · rw [runC, e1]; simp only [bind, Except.bind, k2]; rfl

/-- Two pulses of peaks 3 and 2 (offset), the second still going on; widths 0. -/
example : (runC ZC.step (ZC.mk' (2 : ℚ) 128) [0, 2, 4, 3, -5, 2, 3]).toOption.map
    (fun r => (r.1.edge 0).toOption.map fun e => (e.leading, e.trailing, e.peak, e.width)) =
    some (some (1, 4, 3, 0)) := by decide +kernel
example : (runC ZC.step (ZC.mk' (2 : ℚ) 128) [0, 2, 4, 3, -5, 2, 3]).toOption.map
    (fun r => (r.1.numEdges, r.1.peakPulse)) = some (2, 3) := by decide +kernel
example : (runC ZC.step (ZC.mk' (2 : ℚ) 128) [0, 2, 4, 3, -5, 2, 3]).toOption.map
    (fun r => (r.1.edge 1).toOption.map fun e => (e.leading, e.peak, e.width, e.crossing)) =
    some (some (5, 2, 0, (-6, 1))) := by decide +kernel

/-- A pulse falling below 30% of its peak two frames after its leading edge: width 2. -/
example : (runC ZC.step (ZC.mk' (2 : ℚ) 128) [0, 2, 11, 3, 2, -5]).toOption.map
    (fun r => ((r.1.edge 0).toOption.map fun e => (e.leading, e.trailing, e.peak, e.width))) =
    some (some (1, 5, 10, 2)) := by decide +kernel

end Verif
