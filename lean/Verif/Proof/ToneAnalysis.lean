import Verif.Proof.ToneStep
import Verif.Proof.PeriodSearch
import Verif.Props.PeriodSearch
/-! The analysis of a window of a periodic signal. -/
namespace Verif
open FloatOps
variable {F : Type} [FloatOps F]
attribute [local irreducible] i32 u64
set_option linter.unusedVariables false

/-! ### the peaks are values of the signal -/

theorem detect_vals {B : F → Prop} {z z' : ZC F} (h : B z.peak ∧ B z.peakUpdate) {s : F} (hs : lt (lit 0) s = true → B s)
    (e : z.detect s = .ok z') : B z'.peak ∧ B z'.peakUpdate := by
  rw [ZC.detect] at e
  by_cases hp : lt (lit 0) s = true
  · rw [if_pos hp] at e
    have key : ∀ z1 : ZC F, z1.peak = z.peak → z1.peakUpdate = z.peakUpdate →
        B z1.peak ∧ B (if lt z1.peakUpdate s then s else z1.peakUpdate) := by
      intro z1 g1 g2
      rw [g1, g2]
      refine ⟨h.1, ?_⟩
      split
      · exact hs hp
      · exact h.2
    by_cases hst : z.state = true
    · rw [if_neg (by simp [hst])] at e
      match e1 : z.info.get 0, e with
      | .error _, e => cases e
      | .ok ed, e =>
        simp only [bind, Except.bind] at e
        match e2 : z.info.assign 0 (ZC.updatePeak ed s z.frame), e with
        | .error _, e => cases e
        | .ok r, e =>
          injection e with e
          rw [← e]
          exact key { z with info := r } rfl rfl
    · rw [if_pos (by simp [hst])] at e
      split at e
      · simp only [bind, Except.bind] at e
        split at e
        · cases e
        · rename_i z1 hz1
          injection e with e
          rw [← e]
          split at hz1
          · cases hz1
          · injection hz1 with hz1
            exact key z1 (by rw [← hz1]) (by rw [← hz1])
      · cases e
  · rw [if_neg hp] at e
    split at e
    · simp only [bind, Except.bind] at e
      split at e
      · cases e
      · split at e
        · cases e
        · injection e with e
          rw [← e]
          refine ⟨?_, h.2⟩
          show B (if eq z.peak (lit 0) then z.peakUpdate else z.peak)
          split
          · exact h.2
          · exact h.1
    · injection e with e
      rw [← e]; exact h

theorem step_vals {B : F → Prop} (h0 : B (lit 0)) {z z' : ZC F} (h : B z.peak ∧ B z.peakUpdate) {x : F} {b : Bool}
    (hs : lt (lit 0) (add x (div z.hyst (lit 2))) = true → B (add x (div z.hyst (lit 2))))
    (e : z.step x = .ok (z', b)) :
    (B z'.peak ∧ B z'.peakUpdate) := by
  have hr1 : z.capReset.idleReset.ready = z.ready := by
    rw [ZC.idleReset]; split
    · show z.capReset.ready = _; rw [ZC.capReset]; split <;> rfl
    · rw [ZC.capReset]; split <;> rfl
  have hc1 : B z.capReset.idleReset.peak ∧ B z.capReset.idleReset.peakUpdate := by
    rw [ZC.idleReset]; split
    · rw [ZC.capReset]; split <;> exact h
    · rw [ZC.capReset]; split <;> exact h
  rw [ZC.step, ZC.updateState] at e
  simp only [bind, Except.bind] at e
  split at e
  · cases e
  rename_i z4 hz4
  split at hz4
  · cases hz4
  rename_i z2 hz2
  split at hz4
  · cases hz4
  rename_i z3 hz3
  injection hz4 with hz4
  injection e with e
  injection e with e1 e2
  have hfin : (B z3.peak ∧ B z3.peakUpdate) → B z'.peak ∧ B z'.peakUpdate := by
    intro h3
    rw [← e1, ← hz4]
    have hl : B ({ z3.lateReset with prev := add x (div z.hyst (lit 2)) } : ZC F).peak ∧ B ({ z3.lateReset with prev := add x (div z.hyst (lit 2)) } : ZC F).peakUpdate := by
      rw [ZC.lateReset]; split <;> exact h3
    rw [ZC.advance]
    split
    · simp only []; split <;> exact hl
    · exact hl
  have hcr : (B z2.peak ∧ B z2.peakUpdate) → B z2.capReset.peak ∧ B z2.capReset.peakUpdate := by
    intro h2; rw [ZC.capReset]; split <;> exact h2
  rw [ZC.preShift, hr1] at hz2
  by_cases hr : z.ready = true
  · rw [if_pos hr] at hz2
    simp only [bind, Except.bind] at hz2
    split at hz2
    · cases hz2
    rename_i z1 hz1
    injection hz2 with hz2
    have hz1' : z1.peakUpdate = z.capReset.idleReset.peakUpdate := by
      rw [ZC.shift] at hz1
      simp only [bind, Except.bind] at hz1
      split at hz1
      · cases hz1
      split at hz1
      · cases hz1
      split at hz1
      · cases hz1
      injection hz1 with hz1
      rw [← hz1]
    have h2 : B z2.peak ∧ B z2.peakUpdate := by
      rw [← hz2]
      exact ⟨by show B z1.peakUpdate; rw [hz1']; exact hc1.2, h0⟩
    exact hfin (detect_vals (hcr h2) hs hz3)
  · rw [if_neg hr] at hz2
    injection hz2 with hz2
    subst hz2
    exact hfin (detect_vals (hcr hc1) hs hz3)

theorem peakPulse_vals {B : F → Prop} {z : ZC F} (h : B z.peak ∧ B z.peakUpdate) : B z.peakPulse := by
  rw [ZC.peakPulse, FloatOps.max]; split
  · exact h.2
  · exact h.1

/-! ### the bit pattern -/

/-- Specification: sample `t` of the tone lies in a pulse. -/
def inPulse (N r w t : Nat) : Bool := decide (r ≤ t % N ∧ t % N < r + w)

theorem inPulse_add (N r w t : Nat) : inPulse N r w (t + N) = inPulse N r w t := by
  rw [inPulse, inPulse, Nat.add_mod_right]

theorem inPulse_iff {N r w : Nat} (hrw : r + w < N) (t : Nat) :
    inPulse N r w t = true ↔ ∃ j : Nat, r + j * N ≤ t ∧ t < r + w + j * N := by
  rw [inPulse, decide_eq_true_eq]
  have hd := Nat.div_add_mod t N
  have hm := Nat.mod_lt t (by omega : 0 < N)
  constructor
  · rintro ⟨h1, h2⟩
    refine ⟨t / N, ?_, ?_⟩ <;> rw [Nat.mul_comm (t / N)] <;> omega
  · rintro ⟨j, h1, h2⟩
    obtain ⟨u, rfl⟩ : ∃ u, t = u + j * N := ⟨t - j * N, by omega⟩
    rw [Nat.add_mul_mod_self_right, Nat.mod_eq_of_lt (by omega)]
    omega

/-- A rising edge of the pattern occurs only at `r` modulo `N`. -/
theorem rise_mod {N r w : Nat} (hr : 1 ≤ r) (hrw : r + w < N) (t : Nat) (h0 : inPulse N r w t = false) (h1 : inPulse N r w (t + 1) = true) :
    (t + 1) % N = r := by
  rw [inPulse, decide_eq_false_iff_not] at h0
  rw [inPulse, decide_eq_true_eq] at h1
  rw [Nat.add_mod, Nat.mod_eq_of_lt (a := 1) (by omega)] at h1 ⊢
  have hm := Nat.mod_lt t (by omega : 0 < N)
  generalize t % N = u at *
  by_cases hu : u + 1 = N
  · rw [hu, Nat.mod_self] at h1; omega
  · rw [Nat.mod_eq_of_lt (by omega)] at h1 ⊢; omega

/-- The pattern does not agree with itself shifted by half a period, over half a period. -/
theorem half_differs {N r w : Nat} (hr : 1 ≤ r) (hw : 1 ≤ w) (hrw : r + w < N) (B L : Nat) (hL : N ≤ 2 * L) :
    ¬ ∀ k, k < L → inPulse N r w (B + k) = inPulse N r w (B + (k + N / 2)) := by
  intro h
  -- the rising edge in `[B + 1, B + N]`
  obtain ⟨c, hc, hcm⟩ : ∃ c, c < N ∧ (B + c + 1) % N = r := by
    have hm := Nat.mod_lt B (by omega : 0 < N)
    by_cases hb : B % N < r
    · refine ⟨r - B % N - 1, by omega, ?_⟩
      have : B + (r - B % N - 1) + 1 = r + N * (B / N) := by have := Nat.div_add_mod B N; omega
      rw [this, Nat.add_mul_mod_self_left, Nat.mod_eq_of_lt (by omega)]
    · refine ⟨r + N - B % N - 1, by omega, ?_⟩
      have : B + (r + N - B % N - 1) + 1 = r + N + N * (B / N) := by have := Nat.div_add_mod B N; omega
      rw [this, Nat.add_mul_mod_self_left, Nat.add_mod_right, Nat.mod_eq_of_lt (by omega)]
  have hup : inPulse N r w (B + c + 1) = true := by rw [inPulse, hcm]; simp; omega
  have hlo : inPulse N r w (B + c) = false := by
    rw [inPulse, decide_eq_false_iff_not]
    rw [Nat.add_mod, Nat.mod_eq_of_lt (a := 1) (by omega)] at hcm
    have hm := Nat.mod_lt (B + c) (by omega : 0 < N)
    generalize (B + c) % N = u at *
    by_cases hu : u + 1 = N
    · omega
    · rw [Nat.mod_eq_of_lt (by omega)] at hcm; omega
  have hno : ∀ d, 0 < d → d < N → ¬ (inPulse N r w (B + c + d) = false ∧ inPulse N r w (B + c + d + 1) = true) := by
    rintro d h1 h2 ⟨g1, g2⟩
    have := rise_mod hr hrw _ g1 g2
    rw [show B + c + d + 1 = (B + c + 1) + d by omega, Nat.add_mod, hcm, Nat.mod_eq_of_lt h2] at this
    by_cases hx : r + d < N
    · rw [Nat.mod_eq_of_lt hx] at this; omega
    · rw [Nat.mod_eq_sub_mod (by omega), Nat.mod_eq_of_lt (by omega)] at this; omega
  have hper : ∀ t, inPulse N r w (t + N) = inPulse N r w t := inPulse_add N r w
  have hd2 : 1 ≤ N / 2 := by omega
  by_cases c1 : c + 1 < L
  · exact hno (N / 2) (by omega) (by omega) ⟨by rw [show B + c + N / 2 = B + (c + N / 2) by omega, ← h c (by omega)]; exact hlo,
      by rw [show B + c + N / 2 + 1 = B + (c + 1 + N / 2) by omega, ← h (c + 1) c1]; exact hup⟩
  · by_cases c2 : N / 2 ≤ c ∧ c + 1 < N
    · -- shift back
      have e1 := h (c - N / 2) (by omega)
      have e2 := h (c + 1 - N / 2) (by omega)
      rw [show B + (c - N / 2 + N / 2) = B + c by omega] at e1
      rw [show B + (c + 1 - N / 2 + N / 2) = B + c + 1 by omega] at e2
      have p1 := hper (B + (c - N / 2))
      have p2 := hper (B + (c + 1 - N / 2))
      refine hno (N - N / 2) (by omega) (by omega) ⟨?_, ?_⟩
      · rw [show B + c + (N - N / 2) = B + (c - N / 2) + N by omega, p1, e1]; exact hlo
      · rw [show B + c + (N - N / 2) + 1 = B + (c + 1 - N / 2) + N by omega, p2, e2]; exact hup
    · by_cases c3 : c + 1 = N
      · -- the edge is at `B` itself
        have hup0 : inPulse N r w B = true := by
          have := hper B
          rw [← this, ← hup]; congr 1; omega
        have e0 := h 0 (by omega)
        rw [Nat.add_zero, Nat.zero_add] at e0
        by_cases hodd : N % 2 = 0
        · have e1 := h (N / 2 - 1) (by omega)
          rw [show B + (N / 2 - 1 + N / 2) = B + c by omega] at e1
          have p1 := hper (B + (N / 2 - 1))
          have p2 := hper (B + N / 2)
          refine hno (N / 2) (by omega) (by omega) ⟨?_, ?_⟩
          · rw [show B + c + N / 2 = B + (N / 2 - 1) + N by omega, p1, e1]; exact hlo
          · rw [show B + c + N / 2 + 1 = B + N / 2 + N by omega, p2, ← e0]; exact hup0
        · have e1 := h (N / 2) (by omega)
          rw [show B + (N / 2 + N / 2) = B + c by omega] at e1
          rw [hlo, ← e0, hup0] at e1
          cases e1
      · -- `c < N / 2` and `L ≤ c + 1`
        have hcl : c + 1 = N / 2 := by omega
        have hodd : N % 2 = 0 := by omega
        have e1 := h c (by omega)
        have e0 := h 0 (by omega)
        rw [Nat.add_zero, Nat.zero_add] at e0
        have p2 := hper B
        refine hno (N / 2) (by omega) (by omega) ⟨?_, ?_⟩
        · rw [show B + c + N / 2 = B + (c + N / 2) by omega, ← e1]; exact hlo
        · rw [show B + c + N / 2 + 1 = B + N by omega, p2, e0, show B + N / 2 = B + c + 1 by omega]; exact hup

/-! ### the stored edges of a completed window -/

variable {y : Nat → F} {hy : F} {N r w : Nat}

/-- The threshold is met by the peak of the pulses. -/
def Accept (y : Nat → F) (r w : Nat) (v : F) : Prop := le (mul v (lit (6 / 10))) (pk y r (w - 1)) = true

/-- A completed window that starts `B` samples into the tone. -/
structure Win (y : Nat → F) (N r w W B m n : Nat) (z : ZC F) : Prop where
  inv : ZC.Inv W z
  ready : z.ready = true
  num : z.numEdges = n
  n2 : 2 ≤ n
  edge : ∀ i, i < n → ∃ e, z.edge i = .ok e ∧ GoodE y N r w B (m + i) e
  first : B ≤ r + w + m * N
  stop : ∀ j, j < m → r + w + j * N < B
  last : ∀ j, r + j * N < B + W → j < m + n
  lastT : B + W ≤ r + w + (m + n) * N

theorem tinv_win {W k q : Nat} {b : Int} {m : Nat} {hd gs : List (ZInfo F)} {z : ZC F} (ht : Tone y hy N r w)
    (h : TInv y hy N r w W k q b m hd gs [] z) (hr : z.ready = true) (hb : 0 ≤ b) : Win y N r w W b.toNat m gs.length z := by
  obtain ⟨hs, h2, hfr⟩ := h.inv.ready hr
  have hrw := ht.rw
  have hp : ¬ InP r w q := by
    intro hp; rw [h.state] at hs; simp [hp] at hs
  have hhd := h.ei.nop hp
  subst hhd
  have heq : z.edges = gs := by rw [h.ei.eq]; simp
  have hlen : gs.length = z.numEdges := by rw [← heq]; exact h.inv.toRep.edges_length
  have hvf : z.vframe = z.frame + (W / 2 : Nat) := by simp [ZC.vframe, hr, h.inv.window]
  have hbb := h.hb
  have hcl := h.ei.len
  have hB : (b.toNat : Int) = b := by omega
  have hne : gs ≠ [] := by intro hh; rw [hh] at hlen; simp at hlen; omega
  have hkeep := h.ei.keep hne
  have hq := h.hq
  refine ⟨h.inv, hr, hlen.symm, by omega, ?_, ?_, ?_, ?_, ?_⟩
  · intro i hi
    refine ⟨_, ZC.edge_ok h.inv.toRep i (by omega), ?_⟩
    have hg := goods_get h.ei.good (z.numEdges - 1 - i) (by omega)
    have hidx : cl r w k q - 1 - (z.numEdges - 1 - i) = m + i := by omega
    rw [hidx] at hg
    rw [hB]
    simp only [heq]
    exact hg.2
  · zify; rw [hB]; exact_mod_cast hkeep
  · intro j hj
    have := h.ei.stop j hj
    zify; rw [hB]; exact this
  · intro j hj
    rw [← hcl, cl]
    have hj' : (r + j * N : Int) < k * N + q := by
      have : ((r + j * N : Nat) : Int) < ((b.toNat + W : Nat) : Int) := by exact_mod_cast hj
      push_cast at this
      rw [hB] at this
      omega
    have hjk : j ≤ k := by
      by_contra hc
      have := Nat.mul_le_mul_right N (by omega : k + 1 ≤ j)
      rw [Nat.add_mul, Nat.one_mul] at this
      have : (k * N + N : Int) ≤ j * N := by exact_mod_cast this
      omega
    split
    · omega
    · rename_i hc
      rcases Nat.lt_or_ge j k with h1 | h1
      · exact h1
      · exfalso
        have : j = k := by omega
        subst this
        apply hp
        rw [InP]; omega
  · have := cl_fall (k := k) (q := q) hrw h.hq
    rw [hcl] at this
    have h3 : b + W ≤ k * N + q := by omega
    zify
    rw [hB]
    push_cast at this
    omega

/-- The results of the analysis: the collected estimate. -/
def exactInfo (p : PD F) (y : Nat → F) (N r : Nat) : PInfo F :=
  let d := div (neg (y (r - 1))) (sub (y r) (y (r - 1)))
  { period := div (add (ofInt N) (sub d d)) (ofInt 1), periodicity := PD.periodicityOf p 0 }

theorem win_pattern {W B m n : Nat} {z : ZC F} (ht : Tone y hy N r w) (h : Win y N r w W B m n z) (p : Nat) (hp : p < W) :
    (∃ i e, i < n ∧ z.edge i = .ok e ∧ e.leading ≤ p ∧ (p : Int) < e.trailing) ↔ inPulse N r w (B + p) = true := by
  rw [inPulse_iff ht.rw]
  constructor
  · rintro ⟨i, e, hi, he, h1, h2⟩
    obtain ⟨e', he', g1, g2, -⟩ := h.edge i hi
    rw [he] at he'
    injection he' with he'
    subst he'
    refine ⟨m + i, ?_, ?_⟩
    · zify; push_cast at g1; omega
    · zify; push_cast at g2; omega
  · rintro ⟨j, h1, h2⟩
    have hjm : m ≤ j := by
      by_contra hc
      have := h.stop j (by omega)
      omega
    have hjn : j < m + n := h.last j (by omega)
    obtain ⟨e, he, g1, g2, -⟩ := h.edge (j - m) (by omega)
    rw [show m + (j - m) = j by omega] at g1 g2
    refine ⟨j - m, e, by omega, he, ?_, ?_⟩
    · zify at h1; omega
    · zify at h2; omega

theorem period_good {b : Int} {c : Nat} {e1 e2 : ZInfo F} (h1 : GoodE y N r w b c e1) (h2 : GoodE y N r w b (c + 1) e2) (hN : N < 2 ^ 31) :
    e1.period e2 = .ok N ∧ e1.fractionalPeriod e2 = .ok (add (ofInt (N : Int))
      (sub (div (neg (y (r - 1))) (sub (y r) (y (r - 1)))) (div (neg (y (r - 1))) (sub (y r) (y (r - 1)))))) := by
  obtain ⟨a1, a2, a3, a4⟩ := h1
  obtain ⟨b1, b2, b3, b4⟩ := h2
  have hd : e2.leading - e1.leading = N := by
    rw [a1, b1]; push_cast; ring
  have hs : subInt e2.leading e1.leading = .ok (N : Int) := by
    rw [subInt, hd, if_pos (by omega)]
  have hu : u64 (N : Int) = N := by
    have := u64_id (x := (N : Int)) (by omega) (by omega)
    exact_mod_cast this
  refine ⟨?_, ?_⟩
  · rw [ZInfo.period, if_pos (by omega), hs, PD.ok_bind, hu]; rfl
  · rw [ZInfo.fractionalPeriod, if_pos (by omega), hs, PD.ok_bind, a3, b3]; rfl

/-- The first comparison of the search finds the period; the result depends only on whether the pattern, over the
compared length, also agrees with itself shifted by half a period. -/
theorem win_search {W B m n : Nat} {p : PD F} (ht : Tone y hy N r w) (h : Win y N r w W B m n p.zc) (hp : PD.PRep W p)
    (hN : 2 * N ≤ W) (hmin : p.minPeriod ≤ N) (hacc : Accept y r w p.zc.peakPulse)
    {g : Nat → Bool} (hg : Bits p.bits g) (hgb : ∀ b, b < W → g b = inPulse N r w (B + b)) (cs : Coll F) (hcs : cs.fundamental = none) :
    ((∀ k, k < PD.cmpLen W → inPulse N r w (B + k) = inPulse N r w (B + (k + N / 2))) →
      PD.outerLoop p (n - 1) 0 cs = .ok cs) ∧
    ((¬ ∀ k, k < PD.cmpLen W → inPulse N r w (B + k) = inPulse N r w (B + (k + N / 2))) →
      ∃ fp, PD.outerLoop p (n - 1) 0 cs = .ok { firstPeriod := fp, fundamental := some { i1 := 0, i2 := 1, period := i32 N, periodicity := PD.periodicityOf p 0, harmonic := 1 } }) := by
  have hn2 := h.n2
  have hlt := hp.bits.ok.lt
  have hge := hp.bits.ok.ge
  obtain ⟨nw, hnw, hnw2, hsz⟩ := hp.bits.len
  have hcmp : 64 * max (nw / 2 - 1) 1 = PD.cmpLen W := by
    rw [PD.cmpLen, hnw, Nat.mul_div_cancel_left _ (by omega : 0 < 64)]
  have hcl := PD.cmpLen_le hp.bits.ok
  obtain ⟨e0, he0, g0⟩ := h.edge 0 (by omega)
  obtain ⟨e1, he1, g1⟩ := h.edge 1 (by omega)
  obtain ⟨hper, hfp⟩ := period_good (show GoodE y N r w B m e0 from g0) g1 (by omega)
  -- the two autocorrelations
  have hac : ∀ pos, pos ≤ W / 2 → Acf.acf p.bits pos = .ok ((List.range (PD.cmpLen W)).countP fun k => g k != g (k + pos)) := by
    intro pos hpos
    rw [← hcmp]
    exact C15_acf p.bits g hg pos nw hsz hnw2 (by omega) (by rw [hp.bits.size]; exact hpos)
  have hcountP : ∀ pos, pos ≤ W / 2 → (((List.range (PD.cmpLen W)).countP fun k => g k != g (k + pos)) = 0 ↔
      ∀ k, k < PD.cmpLen W → inPulse N r w (B + k) = inPulse N r w (B + (k + pos))) := by
    intro pos hpos
    rw [List.countP_eq_zero]
    constructor
    · intro hh k hk
      have := hh k (List.mem_range.2 hk)
      rw [← hgb k (by omega), ← hgb (k + pos) (by omega)]
      simpa using this
    · intro hh k hk
      rw [List.mem_range] at hk
      have := hh k hk
      rw [← hgb k (by omega), ← hgb (k + pos) (by omega)] at this
      simp [this]
  have hac1 : Acf.acf p.bits N = .ok 0 := by
    rw [hac N (by omega)]
    congr 1
    rw [hcountP N (by omega)]
    intro k hk
    rw [← Nat.add_assoc, inPulse_add]
  have hthr : ∀ e : ZInfo F, ∀ c, GoodE y N r w B c e → le p.threshold e.peak = true := by
    intro e c hh
    rw [hh.2.2.2]; exact hacc
  have hinner : ∀ k, PD.innerLoop p 0 e0 (k + 1) 1 cs =
      (PD.acPeriod p.bits p.minPeriod N true >>= fun r => match r.1 with
        | none => .ok (true, cs)
        | some count => do
          let c ← PD.collect p cs { i1 := 0, i2 := 1, period := i32 r.2, periodicity := PD.periodicityOf p count, harmonic := 0 }
          if count = 0 then return (true, c) else PD.innerLoop p 0 e0 k 2 c) := by
    intro k
    rw [PD.innerLoop, he1, PD.ok_bind, if_pos (hthr e1 _ g1), hper, PD.ok_bind, if_neg (by rw [hp.mid]; omega), if_pos hmin, hcs]
    rfl
  have hout : PD.outerLoop p (n - 1) 0 cs = (PD.innerLoop p 0 e0 (n - 2 + 1) 1 cs >>= fun r =>
      if r.1 = true then .ok r.2 else PD.outerLoop p (n - 2) 1 r.2) := by
    obtain ⟨n', rfl⟩ : ∃ n', n = n' + 2 := ⟨n - 2, by omega⟩
    rw [show n' + 2 - 1 = n' + 1 by omega, PD.outerLoop, he0, PD.ok_bind, if_pos (hthr e0 _ g0), h.num,
      show n' + 2 - (0 + 1) = n' + 2 - 2 + 1 by omega, show n' + 2 - 2 = n' by omega]
    rfl
  have hacp : PD.acPeriod p.bits p.minPeriod N true =
      if (((List.range (PD.cmpLen W)).countP fun k => g k != g (k + N / 2)) = 0) then .ok (none, N) else .ok (some 0, N) := by
    rw [PD.acPeriod, hac1, PD.ok_bind]
    simp only [Bool.true_and, beq_self_eq_true, if_true]
    rw [hac (N / 2) (by omega), PD.ok_bind]
    rfl
  constructor
  · intro hh
    rw [hout, hinner, hacp, if_pos ((hcountP (N / 2) (by omega)).2 hh)]
    rfl
  · intro hh
    rw [hout, hinner, hacp, if_neg (fun hc => hh ((hcountP (N / 2) (by omega)).1 hc))]
    refine ⟨add (ofInt (N : Int)) (sub (div (neg (y (r - 1))) (sub (y r) (y (r - 1)))) (div (neg (y (r - 1))) (sub (y r) (y (r - 1))))), ?_⟩
    rw [PD.ok_bind]
    simp only [PD.collect, hcs, PD.save, PD.periodOf, he0, he1, hfp, PD.ok_bind]
    rfl


/-- The analysis of a completed window of the tone. -/
theorem win_analysis {W B m n : Nat} {p : PD F} (ht : Tone y hy N r w) (h : Win y N r w W B m n p.zc) (hp : PD.PRep W p)
    (hN : 2 * N ≤ W) (hmin : p.minPeriod ≤ N) (hacc : Accept y r w p.zc.peakPulse) :
    ∃ p', (p.setBitstream >>= PD.autocorrelate) = .ok p' ∧ p'.zc = p.zc ∧ p'.minPeriod = p.minPeriod ∧
      p'.fundamental = (if ∀ k, k < PD.cmpLen W → inPulse N r w (B + k) = inPulse N r w (B + (k + N / 2)) then PInfo.default
        else exactInfo p y N r) := by
  obtain ⟨p2, e2, hp2, heq, g, hg, hgb⟩ := PD.setBitstream_ok hp h.ready
  have hge := hp.bits.ok.ge
  have hlt := hp.bits.ok.lt
  have hmid := hp.mid
  have hwin := hp.inv.window
  have hpost := PD.setBitstream_post (p := p) (by rw [hmid, hwin]; omega) (by omega) _ e2
  obtain ⟨-, hnp, hhe⟩ := hpost
  have hthr : ∀ e : ZInfo F, ∀ c, GoodE y N r w B c e → le p.threshold e.peak = true := by
    intro e c hh
    rw [hh.2.2.2]; exact hacc
  have hloud : ∀ i, i < n → ∃ e, PD.Loud p i e ∧ GoodE y N r w B (m + i) e := by
    intro i hi
    obtain ⟨e, he, g0⟩ := h.edge i hi
    exact ⟨e, ⟨by rw [h.num]; exact hi, he, hthr e _ g0⟩, g0⟩
  have hn2 := h.n2
  have hrw := ht.rw
  have hw1 := ht.w1
  have hr1 := ht.r1
  -- not flagged
  have hnum : ¬ p2.numPulses < 2 := by
    rw [hnp, PD.loudCount, not_lt, two_le_filter]
    obtain ⟨e0, ⟨a1, a2, a3⟩, -⟩ := hloud 0 (by omega)
    obtain ⟨e1, ⟨b1, b2, b3⟩, -⟩ := hloud 1 (by omega)
    exact ⟨0, 1, by omega, b1, by rw [a2]; exact a3, by rw [b2]; exact b3⟩
  have hhalf : ¬ p2.halfEmpty = true := by
    rw [hhe]
    rintro (hc | hc)
    · -- the first pulse that begins in the window
      have hex : ∃ j : Nat, B ≤ r + j * N ∧ r + j * N < B + N := by
        by_cases hB : B ≤ r
        · exact ⟨0, by omega, by omega⟩
        · refine ⟨(B - r + N - 1) / N, ?_, ?_⟩
          · have := Nat.div_add_mod (B - r + N - 1) N
            have h4 := Nat.mod_lt (B - r + N - 1) (by omega : 0 < N)
            rw [Nat.mul_comm] at this; omega
          · have := Nat.div_add_mod (B - r + N - 1) N
            rw [Nat.mul_comm] at this; omega
      obtain ⟨j, j1, j2⟩ := hex
      have hjm : m ≤ j := by
        by_contra hcc
        have := h.stop j (by omega)
        omega
      have hjn : j < m + n := h.last j (by omega)
      obtain ⟨e, hl, g1, -⟩ := hloud (j - m) (by omega)
      rw [show m + (j - m) = j by omega] at g1
      have := hc _ e hl
      have hu := u64_id (x := e.leading) (by rw [g1]; zify at j1; omega) (by rw [g1]; zify at j2; omega)
      zify at j2 this
      rw [hu, g1, hmid] at this
      push_cast at this
      omega
    · obtain ⟨e, hl, -, g2, -⟩ := hloud (n - 1) (by omega)
      have := hc _ e hl
      have hT := h.lastT
      have hmn : (m + n) * N = (m + (n - 1)) * N + N := by
        obtain ⟨n', rfl⟩ : ∃ n', n = n' + 1 := ⟨n - 1, by omega⟩
        rw [Nat.add_sub_cancel]; ring
      rw [hmn] at hT
      have hlow : (W / 2 : Nat) ≤ e.trailing := by rw [g2]; zify at hT ⊢; omega
      have hcl : e.trailing < 2 ^ 64 := by
        have hs := (hp.inv.ready h.ready).1
        have hok := hp.inv.ok
        rw [hs] at hok
        have hmem : e ∈ p.zc.edges := by
          have he := hl.2.1
          rw [ZC.edge_ok hp.inv.toRep _ hl.1] at he
          injection he with he
          rw [← he]; exact List.getElem_mem _
        have := ZC.closed_mem hok hmem
        have := hp.inv.frame
        omega
      have hu := u64_id (x := e.trailing) (by omega) hcl
      omega
  have hth2 : p2.threshold = p.threshold := by rw [heq]; rfl
  have hz2 : p2.zc = p.zc := by rw [heq]
  have hmp2 : p2.minPeriod = p.minPeriod := by rw [heq]
  have hpat : ∀ b, b < W → g b = inPulse N r w (B + b) := by
    intro b hb
    rw [Bool.eq_iff_iff, hgb b hb, ← win_pattern ht h b hb]
    constructor
    · rintro ⟨j, e, hj, he, hbits⟩
      rw [h.num] at hj
      obtain ⟨e', he', g1, g2, -⟩ := h.edge j hj
      rw [he] at he'
      injection he' with he'
      subst he'
      rw [PD.edgeBits] at hbits
      simp only [Bool.and_eq_true, Bool.or_eq_true, decide_eq_true_eq] at hbits
      have htr : ¬ e.trailing < 0 := by
        rw [g2]
        have := h.first
        have h4 := Nat.mul_le_mul_right N (by omega : m ≤ m + j)
        zify at this h4
        push_cast
        omega
      exact ⟨j, e, hj, he, by rcases hbits.2 with h5 | h5 <;> omega, by rcases hbits.2 with h5 | h5 <;> omega⟩
    · rintro ⟨i, e, hi, he, h1, h2⟩
      obtain ⟨e', he', g1⟩ := h.edge i hi
      rw [he] at he'
      injection he' with he'
      subst he'
      refine ⟨i, e, by rw [h.num]; exact hi, he, ?_⟩
      rw [PD.edgeBits, hthr e _ g1]
      simp [h1, h2]
  have hws : Win y N r w W B m n p2.zc := by rw [hz2]; exact h
  obtain ⟨s1, s2⟩ := win_search (cs := { firstPeriod := lit 0, fundamental := none }) ht hws hp2 hN (by rw [hmp2]; exact hmin)
    (by rw [hz2]; exact hacc) hg hpat rfl
  have hauto : ∀ c, PD.outerLoop p2 (n - 1) 0 { firstPeriod := lit 0, fundamental := none } = .ok c →
      PD.autocorrelate p2 = (match c.fundamental with
        | none => .ok { p2 with fundamental := PInfo.default }
        | some x => PD.periodOf p2.zc x >>= fun per => .ok { p2 with fundamental := { period := div per (ofInt x.harmonic), periodicity := x.periodicity } }) := by
    intro c hc
    have hnn : p2.zc.numEdges = n := by rw [hz2]; exact h.num
    rw [PD.autocorrelate, if_neg (by rw [hnn]; omega), if_neg (by simp [hhalf, hnum]), hnn, hc, PD.ok_bind]
    rfl
  rw [e2, PD.ok_bind]
  by_cases hh : ∀ k, k < PD.cmpLen W → inPulse N r w (B + k) = inPulse N r w (B + (k + N / 2))
  · rw [hauto _ (s1 hh), if_pos hh]
    exact ⟨_, rfl, hz2, hmp2, rfl⟩
  · obtain ⟨fp, hfp⟩ := s2 hh
    obtain ⟨e0, he0, g0⟩ := h.edge 0 (by omega)
    obtain ⟨e1, he1, g1⟩ := h.edge 1 (by omega)
    obtain ⟨-, hper⟩ := period_good (show GoodE y N r w B m e0 from g0) g1 (by omega)
    rw [hauto _ hfp, if_neg hh]
    simp only [PD.periodOf, hz2, he0, he1, PD.ok_bind, hper]
    refine ⟨_, rfl, rfl, hmp2, ?_⟩
    have hwt : p2.weight = p.weight := by rw [heq]
    simp only [exactInfo, PD.periodicityOf, hwt]
    rfl

/-! ### a call, and a run -/

/-- The state of the period detector `q` samples into period `k`, all stored edges being pulses of the tone. -/
structure PTInv (y : Nat → F) (hy : F) (N r w W k q : Nat) (b : Int) (p : PD F) : Prop where
  pinv : PD.PInv W p
  t : ∃ m hd gs, TInv y hy N r w W k q b m hd gs [] p.zc
  b0 : 0 ≤ b
  min : p.minPeriod ≤ N
  acc : Accept y r w p.zc.peak ∧ Accept y r w p.zc.peakUpdate

/-- Specification: what an analysis of the window starting at sample `B` reports. -/
def reported (W : Nat) (y : Nat → F) (N r w B : Nat) : PInfo F :=
  if ∀ k, k < PD.cmpLen W → inPulse N r w (B + k) = inPulse N r w (B + (k + N / 2)) then PInfo.default
  else
    let d := div (neg (y (r - 1))) (sub (y r) (y (r - 1)))
    { period := div (add (ofInt N) (sub d d)) (ofInt 1)
      periodicity := sub (lit 1) (mul (ofInt 0) (div (lit 2) (ofInt W))) }

theorem pd_tone_step' {W k q : Nat} {b : Int} {p : PD F} (ht : Tone y hy N r w) (h : PTInv y hy N r w W k q b p) (hN : 2 * N ≤ W)
    (hacc0 : Accept y r w (lit 0)) (hacc : ∀ i, i < N → lt (lit 0) (y i) = true → Accept y r w (y i))
    (x : F) (hx : add x (div hy (lit 2)) = y q) :
    ∃ p', p.step x = .ok (p', p'.zc.ready) ∧
      PTInv y hy N r w W (nextK N k q) (nextQ N q) (b + if p.zc.ready then (W / 2 : Nat) else 0) p' ∧
      (p'.zc.ready = false → p'.fundamental = p.fundamental) ∧
      (p'.zc.ready = true → p'.fundamental = reported W y N r w (b + if p.zc.ready then (W / 2 : Nat) else 0).toNat) ∧ p'.zc.isReset = false := by
  obtain ⟨hp, ⟨m, hd, gs, h1⟩, hb0, hmin, ha⟩ := h
  have hWok := hp.bits.ok
  have hge := hWok.ge
  have hlt := hWok.lt
  obtain ⟨z', b', m', hd', gs', js', ez, t', hjs, hbb, -, -, -⟩ := tinv_step ht h1 hWok hN (tinv_cap ht h1 (by simp) hWok hN) x hx
  have := List.length_eq_zero_iff.1 (by simpa using hjs)
  subst this
  have := hbb (Or.inl hb0)
  subst this
  generalize hB : b + ((if p.zc.ready then W / 2 else 0 : Nat) : Int) = b' at *
  have hb0' : 0 ≤ b' := by rw [← hB]; split <;> omega
  have hv := step_vals (B := Accept y r w) hacc0 ha (x := x) (by rw [h1.hyst, hx]; exact hacc q h1.hq) ez
  have hfr : z'.frame ≠ 0 := by
    intro hf
    by_cases hr : z'.ready = true
    · have := (t'.inv.ready hr).2.2
      omega
    · have hr' : z'.ready = false := by simpa using hr
      have hvf : z'.vframe = z'.frame := by simp [ZC.vframe, hr']
      have hbq := t'.hb
      have hbq0 := h1.hb
      have hnt := next_time N k q
      have hntI : ((nextK N k q : Nat) : Int) * N + (nextQ N q : Nat) = k * N + q + 1 := by exact_mod_cast hnt
      by_cases hrd : p.zc.ready = true
      · have h5 : p.zc.vframe = p.zc.frame + (W / 2 : Nat) := by simp [ZC.vframe, hrd, h1.inv.window]
        rw [hrd] at hB; simp at hB
        omega
      · have hrd' : p.zc.ready = false := by simpa using hrd
        have h5 : p.zc.vframe = p.zc.frame := by simp [ZC.vframe, hrd']
        rw [hrd'] at hB; simp at hB
        omega
  have hP : ∀ p2 : PD F, p2.zc = z' → p2.bits = p.bits → p2.midPoint = p.midPoint → PD.PRep W p2 := by
    intro p2 a1 a2 a3
    exact ⟨by rw [a2]; exact hp.bits, by rw [a3]; exact hp.mid, by rw [a1]; exact t'.inv⟩
  have hmk : ∀ p2 : PD F, p2.zc = z' → PD.PInv W p2 → p2.minPeriod = p.minPeriod →
      PTInv y hy N r w W (nextK N k q) (nextQ N q) b' p2 := by
    intro p2 a1 a2 a3
    exact ⟨a2, ⟨m', hd', gs', by rw [a1]; exact t'⟩, hb0', by rw [a3]; exact hmin, by rw [a1]; exact hv⟩
  have hstep := PD.step_ok hp x
  have hpi : ∀ p2 o, p.step x = .ok (p2, o) → PD.PInv W p2 := by
    intro p2 o e2
    rcases hstep with ⟨r2, e3, i3, -⟩ | e3
    · rw [e2] at e3; injection e3 with e3; rw [← e3] at i3; exact i3
    · rw [e2] at e3; cases e3
  generalize hp1 : (if (!z'.state && p.zc.state != z'.state) = true then
      { p with zc := z', edgeMark := p.edgeMark + 1, predictedPeriod := lit (-1) } else { p with zc := z' } : PD F) = p1
  have hq1 : p1.zc = z' ∧ p1.bits = p.bits ∧ p1.midPoint = p.midPoint ∧ p1.weight = p.weight ∧ p1.minPeriod = p.minPeriod ∧
      p1.fundamental = p.fundamental := by
    rw [← hp1]; split <;> exact ⟨rfl, rfl, rfl, rfl, rfl, rfl⟩
  obtain ⟨a1, a2, a3, a4, a5, a6⟩ := hq1
  have hres : ¬ p1.zc.isReset = true := by
    rw [a1, ZC.isReset]; simpa using hfr
  have hunf : p.step x = (if p1.zc.ready = true then (p1.setBitstream >>= fun p2 => p2.autocorrelate >>= fun p3 => .ok (p3, true)) else .ok (p1, false)) := by
    rw [PD.step, ez, PD.ok_bind]
    simp only [hp1, if_neg hres]
    rfl
  by_cases hr : z'.ready = true
  · have hw := tinv_win ht t' hr hb0'
    rw [← a1] at hw
    obtain ⟨p', e', c1, c2, c3⟩ := win_analysis ht hw (hP p1 a1 a2 a3) hN (by rw [a5]; exact hmin) (by rw [a1]; exact peakPulse_vals hv)
    have e2 : p.step x = .ok (p', true) := by
      rw [hunf, if_pos (by rw [a1]; exact hr)]
      cases hs : p1.setBitstream with
      | error err => rw [hs] at e'; cases e'
      | ok p2 =>
        rw [hs, PD.ok_bind] at e'
        rw [PD.ok_bind, e', PD.ok_bind]
    have hz : p'.zc = z' := by rw [c1, a1]
    refine ⟨p', by rw [e2, hz, hr], hmk p' hz (hpi _ _ e2) (by rw [c2, a5]), fun hc => ?_, fun _ => ?_, by rw [hz, ZC.isReset]; simpa using hfr⟩
    · rw [hz, hr] at hc; cases hc
    · rw [c3, reported]
      simp only [exactInfo, PD.periodicityOf, a4, hp.weight]
      rfl
  · have hr' : z'.ready = false := by simpa using hr
    have e2 : p.step x = .ok (p1, false) := by
      rw [hunf, if_neg (by rw [a1]; exact hr)]
    refine ⟨p1, by rw [e2, a1, hr'], hmk p1 a1 (hpi _ _ e2) a5, fun _ => a6, fun hc => ?_, by simpa using hres⟩
    rw [a1, hr'] at hc; cases hc

theorem pd_tone_step {W k q : Nat} {b : Int} {p : PD F} (ht : Tone y hy N r w) (h : PTInv y hy N r w W k q b p) (hN : 2 * N ≤ W)
    (hacc0 : Accept y r w (lit 0)) (hacc : ∀ i, i < N → lt (lit 0) (y i) = true → Accept y r w (y i))
    (x : F) (hx : add x (div hy (lit 2)) = y q) :
    ∃ p', p.step x = .ok (p', p'.zc.ready) ∧
      PTInv y hy N r w W (nextK N k q) (nextQ N q) (b + if p.zc.ready then (W / 2 : Nat) else 0) p' ∧
      (p'.zc.ready = false → p'.fundamental = p.fundamental) ∧
      (p'.zc.ready = true → p'.fundamental = reported W y N r w (b + if p.zc.ready then (W / 2 : Nat) else 0).toNat) := by
  obtain ⟨p', e, i, f, g, -⟩ := pd_tone_step' ht h hN hacc0 hacc x hx
  exact ⟨p', e, i, f, g⟩
end Verif
