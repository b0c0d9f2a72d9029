import Verif.Proof.ToneAnalysis
/-!
# From any state to the tone: the detector forgets its history
-/
namespace Verif
open FloatOps
variable {F : Type} [FloatOps F]

/-- Frame numbers and the number of edges after a call, in any state. -/
theorem ZC.step_frame {W : Nat} (hW : ZC.WOk W) {z z' : ZC F} {o : Bool} (h : ZC.Inv W z) (x : F) (e : z.step x = .ok (z', o)) :
    z'.vframe ≤ z.frame + 1 ∧ z'.frame ≤ z.frame + 1 ∧
      (z'.state = false → z'.frame < W ∨ z'.frame + W / 2 ≤ z.frame + 1) ∧
      (z.capReset.frame + 1 < W → z'.ready = false) ∧
      (z.ready = false → z'.numEdges ≤ z.capReset.numEdges + (if z.capReset.state = true ∨ z'.state = false then 0 else 1) ∧ z'.frame ≤ z.capReset.frame + 1) := by
  have hcr : z.ready = true → z.numEdges < z.info.data.length := by
    intro hr
    have hle := h.le
    have := (h.ready hr).1
    rcases Nat.lt_or_ge z.numEdges z.info.data.length with h1 | h1
    · exact h1
    · rw [h.full (by omega)] at this; cases this
  obtain ⟨i1, n1, r1, e1, hy1, p1, c1⟩ := ZC.capReset_ok h hcr
  obtain ⟨i2, r2, hy2, s2, n2, f2, p2⟩ := ZC.idleReset_ok i1
  obtain ⟨z3, e3, i3, r3, fr3, s3, hy3, p3, n3, eq3, ed3⟩ := ZC.preShift_ok hW i2
  have n3' := n3 (by rw [n2, f2]; exact n1)
  obtain ⟨i4, n4, r4, e4, hy4, p4, -⟩ := ZC.capReset_ok i3 (by intro _; exact n3')
  have e4' := e4 n3'
  obtain ⟨z5, e5, m5, fr5, hy5, s5, ed5⟩ := ZC.detect_ok hW i4 (by rw [r4, r3]) n4 (add x (div z.hyst (lit 2)))
  obtain ⟨m6, f6, hy6, s6, c6⟩ := ZC.lateReset_ok m5
  have hz : z' = ZC.advance { z5.lateReset with prev := add x (div z.hyst (lit 2)) } := by
    have : z.step x = .ok (ZC.advance { z5.lateReset with prev := add x (div z.hyst (lit 2)) }, (ZC.advance { z5.lateReset with prev := add x (div z.hyst (lit 2)) }).state) := by
      simp only [ZC.step, ZC.updateState, e3, e5, bind, Except.bind]
      rfl
    rw [e] at this; injection this with this; injection this
  have hfc : z.capReset.frame ≤ z.frame := by
    rw [ZC.capReset]; split
    · exact Nat.zero_le _
    · exact le_refl _
  have hfi : z.capReset.idleReset.frame ≤ z.capReset.frame := by
    rw [ZC.idleReset]; split
    · exact Nat.zero_le _
    · exact le_refl _
  have h5 : z5.frame ≤ z.capReset.frame := by rw [fr5, e4', fr3]; exact hfi
  have h6 : z5.lateReset.frame ≤ z5.frame ∧ (z5.lateReset.numEdges = z5.numEdges ∧ z5.lateReset.state = z5.state ∨ z5.lateReset.numEdges = 0) := by
    rcases c6 with ⟨c6, -⟩ | c6
    · rw [c6]; exact ⟨le_refl _, Or.inl ⟨rfl, rfl⟩⟩
    · rw [c6]; exact ⟨Nat.zero_le _, Or.inr rfl⟩
  have h5n : z.ready = false → z5.numEdges ≤ z.capReset.numEdges + (if z.capReset.state = true ∨ z5.state = false then 0 else 1) := by
    intro hr
    have hz3 : z3 = z.capReset.idleReset := eq3 (by rw [r2, r1, hr])
    have l5 := m5.toRep.edges_length
    have l4 := i4.toRep.edges_length
    rw [ed5] at l5
    have hs4 : z3.capReset.state = z.capReset.state := by rw [e4', s3, s2]
    have hn4 : z3.capReset.numEdges = z.capReset.numEdges := by rw [e4', hz3, n2]
    rw [hs4] at l5
    rw [← hn4, ← l4, ← l5, s5, hs4]
    cases hst : z.capReset.state with
    | true =>
      rw [if_pos (Or.inl rfl)]
      cases z3.capReset.edges with
      | nil => simp [ZC.detectEdges]
      | cons a l => simp only [ZC.detectEdges]; split_ifs <;> simp
    | false => simp only [ZC.detectEdges, Bool.false_eq_true, false_or, Bool.false_and, if_false]; split <;> simp
  have hmw := m6.window
  have hmr := m6.ready
  have h7n : z.ready = false → z5.lateReset.numEdges ≤ z.capReset.numEdges + (if z.capReset.state = true ∨ z5.lateReset.state = false then 0 else 1) := by
    intro hr
    rcases h6.2 with ⟨a, b⟩ | a
    · rw [a, b]; exact h5n hr
    · rw [a]; exact Nat.zero_le _
  generalize z5.lateReset = z7 at *
  subst hz
  rw [ZC.advance]
  simp only [hmw]
  split
  · rename_i hc
    split
    · refine ⟨?_, ?_, ?_, ?_, ?_⟩
      · simp only [ZC.vframe, hmw, if_true]; omega
      · show z7.frame + 1 - W / 2 ≤ _; omega
      · intro _; right; show z7.frame + 1 - W / 2 + W / 2 ≤ _; have := hW.ge; omega
      · intro _; exfalso; omega
      · intro hr; exact ⟨h7n hr, by show z7.frame + 1 - W / 2 ≤ _; omega⟩
    · have := hW.ge
      refine ⟨?_, ?_, ?_, ?_, ?_⟩
      · simp only [ZC.vframe, ZC.reset, hmr]; simp; omega
      · show 0 ≤ _; omega
      · intro _; left; show 0 < W; omega
      · intro _; exact hmr
      · intro hr; exact ⟨Nat.zero_le _, Nat.zero_le _⟩
  · rename_i hc
    refine ⟨?_, ?_, ?_, ?_, ?_⟩
    · simp only [ZC.vframe, hmr]; push_cast; simp; omega
    · show z7.frame + 1 ≤ _; omega
    · intro hs; left; show z7.frame + 1 < W
      by_contra hcon
      exact hc ⟨by omega, hs⟩
    · intro _; exact hmr
    · intro hr; exact ⟨h7n hr, by show z7.frame + 1 ≤ _; omega⟩

section
variable {y : Nat → F} {hy : F} {N r w : Nat}

/-- A run of the detector on the tone. -/
structure ZSeq (y : Nat → F) (hy : F) (W : Nat) (x : Nat → F) (Z : Nat → ZC F) : Prop where
  inv : ∀ t, ZC.Inv W (Z t)
  hyst : ∀ t, (Z t).hyst = hy
  step : ∀ t, (Z t).step (x t) = .ok (Z (t + 1), (Z (t + 1)).state)
  off : ∀ t, add (x t) (div hy (lit 2)) = y t

theorem ZSeq.shift {W : Nat} {x : Nat → F} {Z : Nat → ZC F} (h : ZSeq y hy W x Z) (s : Nat) :
    ZSeq (fun t => y (s + t)) hy W (fun t => x (s + t)) fun t => Z (s + t) :=
  ⟨fun _ => h.inv _, fun _ => h.hyst _, fun _ => h.step _, fun _ => h.off _⟩

theorem ZSeq.exists {W : Nat} (hW : ZC.WOk W) {z : ZC F} (h : ZC.Inv W z) (x : Nat → F) :
    ∃ Z, Z 0 = z ∧ ZSeq (fun t => add (x t) (div z.hyst (lit 2))) z.hyst W x Z := by
  let Z : Nat → { z' : ZC F // ZC.Inv W z' ∧ z'.hyst = z.hyst } := fun n =>
    Nat.rec ⟨z, h, rfl⟩ (fun t a => ⟨Classical.choose (ZC.step_ok hW a.2.1 (x t)),
      (Classical.choose_spec (ZC.step_ok hW a.2.1 (x t))).2.1,
      (Classical.choose_spec (ZC.step_ok hW a.2.1 (x t))).2.2.1.trans a.2.2⟩) n
  refine ⟨fun n => (Z n).1, rfl, fun t => (Z t).2.1, fun t => (Z t).2.2, fun t => ?_, fun _ => rfl⟩
  exact (Classical.choose_spec (ZC.step_ok hW (Z t).2.1 (x t))).1

/-! ### reaching the start of a gap -/

theorem zseq_low {W : Nat} (hW : ZC.WOk W) {x : Nat → F} {Z : Nat → ZC F} (h : ZSeq y hy W x Z) (t : Nat)
    (h1 : lt (lit 0) (y t) = false) (h2 : lt (y t) hy = true) : (Z (t + 1)).state = false := by
  obtain ⟨z', e, -, -, hs, -⟩ := ZC.step_ok hW (h.inv t) (x t)
  have hz : z' = Z (t + 1) := by
    have := h.step t
    rw [e] at this; injection this with this; injection this
  rw [← hz, hs]
  simp only [h.hyst, h.off, h1, h2]
  cases (Z t).capReset.state <;> simp

theorem zseq_frame {W : Nat} (hW : ZC.WOk W) {x : Nat → F} {Z : Nat → ZC F} (h : ZSeq y hy W x Z) (t n : Nat) :
    (Z (t + n)).frame ≤ (Z t).frame + n := by
  induction n with
  | zero => exact le_refl _
  | succ n ih =>
    have := (ZC.step_frame hW (h.inv (t + n)) _ (h.step (t + n))).2.1
    rw [show t + (n + 1) = t + n + 1 by omega]
    omega

/-- A period whose last sample is the fall, starting after a fall. -/
theorem zseq_period {W : Nat} (hW : ZC.WOk W) {x : Nat → F} {Z : Nat → ZC F} (h : ZSeq y hy W x Z) (ht : Tone y hy N r w)
    (hN : 2 * N ≤ W) (hlast : r + w + 1 = N) (c : Nat) (hs : (Z (c * N)).state = false) :
    (Z ((c + 1) * N)).state = false ∧
      ((Z ((c + 1) * N)).frame < W ∨ (Z ((c + 1) * N)).frame + W / 2 ≤ (Z (c * N)).frame) ∧
      ((Z (c * N)).frame < W → (Z ((c + 1) * N)).frame < W ∧ (Z ((c + 1) * N)).vframe ≤ W + w) := by
  have hge := hW.ge
  have hr1 := ht.r1
  have e1 : (c + 1) * N = c * N + (N - 1) + 1 := by rw [Nat.add_mul]; omega
  have hfall : y (c * N + (N - 1)) = y (r + w) := by rw [ht.at]; congr 1; omega
  have hst : (Z ((c + 1) * N)).state = false := by
    rw [e1]
    exact zseq_low hW h _ (by rw [hfall]; exact ht.low _ (by omega) (Or.inr (le_refl _))) (by rw [hfall]; exact ht.down)
  have hB := ZC.step_frame hW (h.inv (c * N + (N - 1))) _ (h.step _)
  rw [← e1] at hB
  obtain ⟨b1, b2, b3, -, -⟩ := hB
  have b3 := b3 hst
  -- the first sample of the gap
  have hlow : ∀ i, i ≤ r → (Z (c * N + i)).state = false := by
    intro i hi
    induction i with
    | zero => exact hs
    | succ i ih =>
      have hi' := ih (by omega)
      obtain ⟨z', e, -, -, hsz, -⟩ := ZC.step_ok hW (h.inv (c * N + i)) (x (c * N + i))
      have hz : z' = Z (c * N + i + 1) := by
        have := h.step (c * N + i)
        rw [e] at this; injection this with this; injection this
      rw [show c * N + (i + 1) = c * N + i + 1 by omega, ← hz, hsz]
      have hc : (Z (c * N + i)).capReset.state = false := by
        rw [ZC.capReset]; split
        · rfl
        · exact hi'
      simp only [h.hyst, h.off, hc, ht.at, ht.low i (by omega) (Or.inl (by omega))]
      simp
  have a := ZC.step_frame hW (h.inv (c * N)) _ (h.step _)
  obtain ⟨a1, a2, a3, -, -⟩ := a
  have a3 := a3 (by have := hlow 1 hr1; exact this)
  have hf := zseq_frame hW h (c * N + 1) (N - 2)
  rw [show c * N + 1 + (N - 2) = c * N + (N - 1) by omega] at hf
  refine ⟨hst, ?_, fun hlt => ?_⟩
  · rcases b3 with b3 | b3
    · exact Or.inl b3
    · rcases a3 with a3 | a3
      · left; omega
      · right; omega
  · have hg : ∀ i, i ≤ r → (Z (c * N + i)).frame < W := by
      intro i hi
      induction i with
      | zero => exact hlt
      | succ i ih =>
        have := (ZC.step_frame hW (h.inv (c * N + i)) _ (h.step _)).2.2.1 (hlow (i + 1) hi)
        have := ih (by omega)
        rw [show c * N + (i + 1) = c * N + i + 1 by omega]
        omega
    have hgr := hg r (le_refl _)
    have hf2 := zseq_frame hW h (c * N + r) w
    rw [show c * N + r + w = c * N + (N - 1) by omega] at hf2
    constructor
    · omega
    · omega

/-- The state at the start of a gap. -/
structure Anchor (hy : F) (W w : Nat) (z : ZC F) : Prop where
  inv : ZC.Inv W z
  hyst : z.hyst = hy
  low : z.state = false
  frame : z.frame < W
  vframe : z.vframe ≤ W + w

theorem zseq_anchor {W : Nat} (hW : ZC.WOk W) {x : Nat → F} {Z : Nat → ZC F} (h : ZSeq y hy W x Z) (ht : Tone y hy N r w)
    (hN : 2 * N ≤ W) (hlast : r + w + 1 = N) : Anchor hy W w (Z (5 * N)) := by
  have hge := hW.ge
  have s1 : (Z (1 * N)).state = false := by
    have e1 : 1 * N = (r + w) + 1 := by omega
    rw [e1]
    exact zseq_low hW h _ (ht.low _ (by omega) (Or.inr (le_refl _))) ht.down
  have f1 : (Z (1 * N)).frame ≤ 2 * W + 1 := by
    have := (h.inv (1 * N)).frame
    rw [ZC.vframe] at this
    omega
  obtain ⟨s2, f2, g2⟩ := zseq_period hW h ht hN hlast 1 s1
  obtain ⟨s3, f3, g3⟩ := zseq_period hW h ht hN hlast 2 s2
  obtain ⟨s4, f4, g4⟩ := zseq_period hW h ht hN hlast 3 s3
  obtain ⟨s5, f5, g5⟩ := zseq_period hW h ht hN hlast 4 s4
  have : (Z ((3 + 1) * N)).frame < W := by
    simp only [Nat.reduceAdd] at *
    by_cases h1 : (Z (1 * N)).frame < W
    · exact (g4 (g3 (g2 h1).1).1).1
    by_cases h2 : (Z (2 * N)).frame < W
    · exact (g4 (g3 h2).1).1
    by_cases h3 : (Z (3 * N)).frame < W
    · exact (g4 h3).1
    omega
  exact ⟨h.inv _, h.hyst _, s5, (g5 this).1, (g5 this).2⟩

theorem Anchor.tinv {W : Nat} {z : ZC F} (h : Anchor hy W w z) (ht : Tone y hy N r w) :
    TInv y hy N r w W 0 0 (-z.vframe) 0 [] [] z.edges z := by
  have hp : ¬ InP r w 0 := by rw [InP]; omega
  have hrw := ht.rw
  refine ⟨h.inv, h.hyst, by omega, by omega, by rw [h.low]; simp [hp], fun _ => h.frame, h.vframe, fun hh => absurd hh hp, by simp, ?_⟩
  refine ⟨by simp, fun hh => absurd hh hp, fun _ => rfl, ?_, ?_, by omega, by simp, ?_⟩
  · cases cl r w 0 0 <;> trivial
  · simp [cl]
  · intro e he
    have hok := h.inv.ok
    rw [h.low] at hok
    have := (ZC.closed_mem hok he).2.1
    omega

/-! ### getting rid of the edges from before -/

theorem posK' {N t : Nat} (h : 0 < N) : nextK N (t / N) (t % N) = (t + 1) / N ∧ nextQ N (t % N) = (t + 1) % N := by
  have hd := Nat.div_add_mod t N
  have hm := Nat.mod_lt t h
  rw [nextK, nextQ]
  split
  · rename_i hc
    have : t + 1 = N * (t / N + 1) := by rw [Nat.mul_add]; omega
    rw [this, Nat.mul_div_cancel_left _ h, Nat.mul_mod_right]
    exact ⟨rfl, rfl⟩
  · have : t + 1 = (t % N + 1) + N * (t / N) := by omega
    have e1 : (t + 1) / N = t / N := by
      rw [this, Nat.add_mul_div_left _ _ h, Nat.div_eq_of_lt (by omega)]; omega
    have e2 : (t + 1) % N = t % N + 1 := by
      rw [this, Nat.add_mul_mod_self_left, Nat.mod_eq_of_lt (by omega)]
    rw [e1, e2]
    exact ⟨rfl, rfl⟩

theorem zseq_flush_step {W t : Nat} (hW : ZC.WOk W) {x : Nat → F} {Z : Nat → ZC F} (h : ZSeq y hy W x Z) (ht : Tone y hy N r w)
    (hN : 2 * N ≤ W) {b : Int} {m : Nat} {hd gs js : List (ZInfo F)} (hi : TInv y hy N r w W (t / N) (t % N) b m hd gs js (Z t))
    (hbj : b ≤ 0 ∨ js = []) (hcap : (Z t).numEdges < (Z t).info.data.length) :
    ∃ b' m' hd' gs' js', TInv y hy N r w W ((t + 1) / N) ((t + 1) % N) b' m' hd' gs' js' (Z (t + 1)) ∧ js'.length ≤ js.length ∧
      (b' ≤ 0 ∨ js' = []) ∧ (0 ≤ b → b' = b + if (Z t).ready then (W / 2 : Nat) else 0) := by
  have hNpos : 0 < N := by have := ht.rw; omega
  have hge := hW.ge
  obtain ⟨z', b', m', hd', gs', js', e, i', hl, hb, hle, hnr, hrd⟩ := tinv_step ht hi hW hN hcap (x t) (by
    rw [h.off, ← ht.at (t / N) (t % N)]; congr 1; rw [Nat.mul_comm, Nat.div_add_mod])
  have hz : z' = Z (t + 1) := by
    have := h.step t
    rw [e] at this; injection this with this; injection this
  rw [hz, (posK' hNpos).1, (posK' hNpos).2] at i'
  refine ⟨b', m', hd', gs', js', i', hl, ?_, fun hb0 => hb (Or.inl hb0)⟩
  by_cases hj : js' = []
  · exact Or.inr hj
  left
  have hjs : js ≠ [] := by
    intro hc; rw [hc] at hl; exact hj (List.length_eq_zero_iff.1 (by simpa using hl))
  have hb0 : b ≤ 0 := by rcases hbj with h1 | h1; exact h1; exact absurd h1 hjs
  have hbb := hb (Or.inr hj)
  by_cases hr : (Z t).ready = true
  · rw [hr, if_pos rfl] at hbb
    by_contra hpos
    apply hj
    apply hrd _ hr (by omega)
    intro hg
    have hlen := hi.ei.len
    rw [hg] at hlen
    have hm : m = 0 := by
      by_contra hm
      have := hi.ei.stop 0 (by omega)
      rw [Nat.cast_zero, zero_mul] at this
      omega
    have hrf := (hi.inv.ready hr).2.2
    have hbt := hi.hb
    have hvf : (Z t).vframe = (Z t).frame + (W / 2 : Nat) := by simp [ZC.vframe, hr, hi.inv.window]
    have hcl : cl r w (t / N) (t % N) = 0 := by rw [hlen, hm]; rfl
    have hk : t / N = 0 := by
      rw [cl] at hcl; split at hcl
      · exact absurd hcl (Nat.succ_ne_zero _)
      · exact hcl
    have hq := Nat.mod_lt t hNpos
    rw [hk] at hbt
    push_cast at hbt
    omega
  · rw [if_neg hr] at hbb; omega

/-- As long as the storage is not full. -/
theorem zseq_flush {W : Nat} (hW : ZC.WOk W) {x : Nat → F} {Z : Nat → ZC F} (h : ZSeq y hy W x Z) (ht : Tone y hy N r w)
    (hN : 2 * N ≤ W) {b : Int} {js : List (ZInfo F)} (hi : TInv y hy N r w W 0 0 b 0 [] [] js (Z 0))
    (hb : b ≤ 0) (n : Nat)
    (hcap : ∀ t, t < n → (∃ b m hd gs js', TInv y hy N r w W (t / N) (t % N) b m hd gs js' (Z t) ∧ js'.length ≤ js.length) →
      (Z t).numEdges < (Z t).info.data.length) :
    ∃ b' m' hd' gs' js', TInv y hy N r w W (n / N) (n % N) b' m' hd' gs' js' (Z n) ∧ js'.length ≤ js.length ∧ (b' ≤ 0 ∨ js' = []) := by
  have hNpos : 0 < N := by have := ht.rw; omega
  induction n with
  | zero => exact ⟨b, 0, [], [], js, by simpa using hi, le_refl _, Or.inl hb⟩
  | succ n ih =>
    obtain ⟨b1, m1, hd1, gs1, js1, i1, l1, bj1⟩ := ih fun t ht' => hcap t (by omega)
    obtain ⟨b2, m2, hd2, gs2, js2, i2, l2, bj2, -⟩ := zseq_flush_step hW h ht hN i1 bj1 (hcap n (by omega) ⟨_, _, _, _, _, i1, l1⟩)
    exact ⟨b2, m2, hd2, gs2, js2, i2, l2.trans l1, bj2⟩

theorem flush_done {W n : Nat} (ht : Tone y hy N r w) {b : Int} {m : Nat} {hd gs js : List (ZInfo F)} {z : ZC F}
    (hi : TInv y hy N r w W (n / N) (n % N) b m hd gs js z) (hbj : b ≤ 0 ∨ js = []) (hn : W + w + 1 ≤ n) : js = [] ∧ 1 ≤ b := by
  have hbb := hi.hb
  have hv := hi.vf
  have hd := Nat.div_add_mod n N
  rw [Nat.mul_comm] at hd
  have : ((n / N : Nat) : Int) * N + (n % N : Nat) = (n : Nat) := by exact_mod_cast hd
  have h1 : 1 ≤ b := by omega
  refine ⟨?_, h1⟩
  rcases hbj with h2 | h2
  · omega
  · exact h2

/-- A full storage: reset, and at most the rest of a pulse is in storage at the next gap. -/
theorem zseq_full {W t : Nat} (hW : ZC.WOk W) {x : Nat → F} {Z : Nat → ZC F} (h : ZSeq y hy W x Z) (ht : Tone y hy N r w)
    (hN : 2 * N ≤ W) (hlast : r + w + 1 = N) {b : Int} {m : Nat} {hd gs js : List (ZInfo F)}
    (hi : TInv y hy N r w W (t / N) (t % N) b m hd gs js (Z t)) (hcap : ¬ (Z t).numEdges < (Z t).info.data.length) :
    Anchor hy W w (Z ((t / N + 1) * N)) ∧ (Z ((t / N + 1) * N)).numEdges ≤ 1 := by
  have hge := hW.ge
  have hNpos : 0 < N := by omega
  have hle := hi.inv.le
  have hst : (Z t).state = true := hi.inv.full (by omega)
  have hp : InP r w (t % N) := by
    have := hi.state
    rw [hst] at this
    exact of_decide_eq_true this.symm
  obtain ⟨hp1, hp2⟩ := hp
  have htd := Nat.div_add_mod t N
  rw [Nat.mul_comm] at htd
  generalize hK : t / N = k at *
  generalize hQ : t % N = q at *
  have e1 : (k + 1) * N = k * N + N := by ring
  have hrd : (Z t).ready = false := by
    by_contra hc
    have := (hi.inv.ready (by simpa using hc)).1
    rw [hst] at this; cases this
  have hcr : (Z t).capReset = (Z t).reset := by
    rw [ZC.capReset, if_pos]
    show (Z t).info.data.length ≤ _
    omega
  -- after the reset
  have key : ∀ i, t + 1 + i ≤ (k + 1) * N → (Z (t + 1 + i)).frame ≤ i + 1 ∧ (Z (t + 1 + i)).ready = false ∧ (Z (t + 1 + i)).numEdges ≤ 1 ∧
      (t + 1 + i < (k + 1) * N → (Z (t + 1 + i)).numEdges = 0 ∨ (Z (t + 1 + i)).state = true) := by
    intro i hi2
    induction i with
    | zero =>
      obtain ⟨-, -, -, a4, a5⟩ := ZC.step_frame hW (h.inv t) _ (h.step t)
      obtain ⟨a5, a6⟩ := a5 hrd
      rw [hcr] at a4 a5 a6
      have a4 := a4 (by show 0 + 1 < W; omega)
      simp only [ZC.reset, Bool.false_eq_true, false_or] at a5
      refine ⟨a6, a4, ?_, fun _ => ?_⟩
      · refine le_trans a5 ?_; split <;> omega
      · by_cases hs : (Z (t + 1)).state = true
        · exact Or.inr hs
        · left
          rw [if_pos (by simpa using hs)] at a5
          exact Nat.le_zero.1 a5
    | succ i ih =>
      obtain ⟨g1, g2, g3, g4⟩ := ih (by omega)
      have g4 := g4 (by omega)
      have hcap1 := (h.inv (t + 1 + i)).toRep.cap_ge
      have hc : (Z (t + 1 + i)).capReset = Z (t + 1 + i) := by
        rw [ZC.capReset, if_neg]
        show ¬ (Z (t + 1 + i)).info.data.length ≤ _
        omega
      obtain ⟨-, a2, -, a4, a5⟩ := ZC.step_frame hW (h.inv (t + 1 + i)) _ (h.step (t + 1 + i))
      obtain ⟨a5, a6⟩ := a5 g2
      rw [hc] at a4 a5 a6
      have a4 := a4 (by omega)
      rw [show t + 1 + (i + 1) = t + 1 + i + 1 by omega]
      have hstay : (Z (t + 1 + i)).state = true → t + 1 + i + 1 < (k + 1) * N → (Z (t + 1 + i + 1)).state = true := by
        intro hs hlt
        obtain ⟨z', e, -, -, hsz, -⟩ := ZC.step_ok hW (h.inv (t + 1 + i)) (x (t + 1 + i))
        have hz : z' = Z (t + 1 + i + 1) := by
          have := h.step (t + 1 + i)
          rw [e] at this; injection this with this; injection this
        rw [← hz, hsz]
        have hy1 : y (t + 1 + i) = y (q + 1 + i) := by
          rw [← ht.at k (q + 1 + i)]; congr 1; omega
        have hfi : ¬ (Z (t + 1 + i)).idleReset.frame > 2 * W := by
          rw [ZC.idleReset]; split
          · show ¬ 0 > 2 * W; omega
          · omega
        simp only [h.hyst, h.off, hc, hs, hy1]
        rw [if_neg hfi]
        rcases ht.high (q + 1 + i) (by omega) (by omega) with h1 | h1
        · rw [if_pos h1]
        · simp [h1]
      refine ⟨by omega, a4, ?_, fun hlt => ?_⟩
      · rcases g4 with g4 | g4
        · rw [g4] at a5; refine le_trans a5 ?_; split <;> omega
        · rw [if_pos (Or.inl g4)] at a5; omega
      · rcases g4 with g4 | g4
        · by_cases hs : (Z (t + 1 + i + 1)).state = true
          · exact Or.inr hs
          · left
            rw [g4, if_pos (Or.inr (by simpa using hs))] at a5
            exact Nat.le_zero.1 a5
        · exact Or.inr (hstay g4 hlt)
  have hend : t + 1 + ((k + 1) * N - (t + 1)) = (k + 1) * N := by omega
  obtain ⟨k1, k2, k3, -⟩ := key ((k + 1) * N - (t + 1)) (by omega)
  rw [hend] at k1 k2 k3
  refine ⟨⟨h.inv _, h.hyst _, ?_, by omega, ?_⟩, k3⟩
  · have e2 : (k + 1) * N = k * N + (r + w) + 1 := by omega
    rw [e2]
    exact zseq_low hW h _ (by rw [ht.at]; exact ht.low _ (by omega) (Or.inr (le_refl _))) (by rw [ht.at]; exact ht.down)
  · simp only [ZC.vframe, k2]; simp; omega

theorem zseq_clean1 {W : Nat} (hW : ZC.WOk W) {x : Nat → F} {Z : Nat → ZC F} (h : ZSeq y hy W x Z) (ht : Tone y hy N r w)
    (hN : 2 * N ≤ W) (ha : Anchor hy W w (Z 0)) (hne : (Z 0).numEdges ≤ 1) :
    ∃ b m hd gs, 1 ≤ b ∧ TInv y hy N r w W ((W + w + 1) / N) ((W + w + 1) % N) b m hd gs [] (Z (W + w + 1)) := by
  have hlen := ha.inv.toRep.edges_length
  have hv0 : 0 ≤ (Z 0).vframe := by rw [ZC.vframe]; split <;> omega
  obtain ⟨b, m, hd, gs, js, i, -, bj⟩ := zseq_flush hW h ht hN (ha.tinv ht) (by omega) (W + w + 1) (by
    rintro t - ⟨b, m, hd, gs, js', i, l⟩
    exact tinv_cap ht i (by omega) hW hN)
  obtain ⟨rfl, hb⟩ := flush_done ht i bj (le_refl _)
  exact ⟨b, m, hd, gs, hb, i⟩

/-- From the start of a gap to a storage holding pulses of the tone only. -/
theorem zseq_clean {W : Nat} (hW : ZC.WOk W) {x : Nat → F} {Z : Nat → ZC F} (h : ZSeq y hy W x Z) (ht : Tone y hy N r w)
    (hN : 2 * N ≤ W) (hlast : r + w + 1 = N) (ha : Anchor hy W w (Z 0)) :
    ∃ t τ b m hd gs, t ≤ 2 * (W + w + 1) + N ∧ τ % N = t % N ∧ 1 ≤ b ∧ TInv y hy N r w W (τ / N) (τ % N) b m hd gs [] (Z t) := by
  have hv0 : 0 ≤ (Z 0).vframe := by rw [ZC.vframe]; split <;> omega
  by_cases hall : ∀ n, n ≤ W + w + 1 → ∀ t, t < n → (∃ b m hd gs js', TInv y hy N r w W (t / N) (t % N) b m hd gs js' (Z t) ∧ js'.length ≤ (Z 0).edges.length) →
      (Z t).numEdges < (Z t).info.data.length
  · obtain ⟨b, m, hd, gs, js, i, -, bj⟩ := zseq_flush hW h ht hN (ha.tinv ht) (by omega) (W + w + 1) (hall _ (le_refl _))
    obtain ⟨rfl, hb⟩ := flush_done ht i bj (le_refl _)
    exact ⟨W + w + 1, W + w + 1, b, m, hd, gs, by omega, rfl, hb, i⟩
  · push Not at hall
    obtain ⟨n, hn, t, htn, ⟨b, m, hd, gs, js, i, -⟩, hc⟩ := hall
    obtain ⟨ha2, hne⟩ := zseq_full hW h ht hN hlast i (by omega)
    have hsh := h.shift ((t / N + 1) * N)
    have hyp : (fun u => y ((t / N + 1) * N + u)) = y := by funext u; exact ht.at _ _
    rw [hyp] at hsh
    obtain ⟨b2, m2, hd2, gs2, hb2, i2⟩ := zseq_clean1 hW hsh ht hN ha2 hne
    refine ⟨(t / N + 1) * N + (W + w + 1), W + w + 1, b2, m2, hd2, gs2, ?_, ?_, hb2, i2⟩
    · have := Nat.div_mul_le_self t N
      rw [Nat.add_mul]
      omega
    · rw [Nat.mul_add_mod_self_right]

/-! ### getting rid of the peaks from before -/

theorem detect_vals2 {A B : F → Prop} (hBA : ∀ v, B v → A v) {z z' : ZC F} (h : A z.peak ∧ B z.peakUpdate) {s : F} (hs : lt (lit 0) s = true → B s)
    (e : z.detect s = .ok z') : A z'.peak ∧ B z'.peakUpdate := by
  rw [ZC.detect] at e
  by_cases hp : lt (lit 0) s = true
  · rw [if_pos hp] at e
    have key : ∀ z1 : ZC F, z1.peak = z.peak → z1.peakUpdate = z.peakUpdate →
        A z1.peak ∧ B (if lt z1.peakUpdate s then s else z1.peakUpdate) := by
      intro z1 g1 g2
      rw [g1, g2]
      refine ⟨h.1, ?_⟩
      split
      · exact hs hp
      · exact h.2
    by_cases hst : z.state = true
    · rw [if_neg (by simp [hst])] at e
      match e1 : z.info.get 0, e with
      | .error _, e => cases e
      | .ok ed, e =>
        simp only [bind, Except.bind] at e
        match e2 : z.info.assign 0 (ZC.updatePeak ed s z.frame), e with
        | .error _, e => cases e
        | .ok r, e =>
          injection e with e
          rw [← e]
          exact key { z with info := r } rfl rfl
    · rw [if_pos (by simp [hst])] at e
      split at e
      · simp only [bind, Except.bind] at e
        split at e
        · cases e
        · rename_i z1 hz1
          injection e with e
          rw [← e]
          split at hz1
          · cases hz1
          · injection hz1 with hz1
            exact key z1 (by rw [← hz1]) (by rw [← hz1])
      · cases e
  · rw [if_neg hp] at e
    split at e
    · simp only [bind, Except.bind] at e
      split at e
      · cases e
      · split at e
        · cases e
        · injection e with e
          rw [← e]
          refine ⟨?_, h.2⟩
          show A (if eq z.peak (lit 0) then z.peakUpdate else z.peak)
          split
          · exact hBA _ h.2
          · exact h.1
    · injection e with e
      rw [← e]; exact h

theorem step_vals2 {A B : F → Prop} (hBA : ∀ v, B v → A v) (h0 : B (lit 0)) {z z' : ZC F} (hn : z.ready = false → A z.peak ∧ B z.peakUpdate)
    (hy : z.ready = true → A z.peakUpdate) {x : F} {b : Bool}
    (hs : lt (lit 0) (add x (div z.hyst (lit 2))) = true → B (add x (div z.hyst (lit 2))))
    (e : z.step x = .ok (z', b)) :
    (A z'.peak ∧ B z'.peakUpdate) := by
  have hr1 : z.capReset.idleReset.ready = z.ready := by
    rw [ZC.idleReset]; split
    · show z.capReset.ready = _; rw [ZC.capReset]; split <;> rfl
    · rw [ZC.capReset]; split <;> rfl
  have hc1 : z.capReset.idleReset.peak = z.peak ∧ z.capReset.idleReset.peakUpdate = z.peakUpdate := by
    rw [ZC.idleReset]; split
    · rw [ZC.capReset]; split <;> exact ⟨rfl, rfl⟩
    · rw [ZC.capReset]; split <;> exact ⟨rfl, rfl⟩
  rw [ZC.step, ZC.updateState] at e
  simp only [bind, Except.bind] at e
  split at e
  · cases e
  rename_i z4 hz4
  split at hz4
  · cases hz4
  rename_i z2 hz2
  split at hz4
  · cases hz4
  rename_i z3 hz3
  injection hz4 with hz4
  injection e with e
  injection e with e1 e2
  have hfin : (A z3.peak ∧ B z3.peakUpdate) → A z'.peak ∧ B z'.peakUpdate := by
    intro h3
    rw [← e1, ← hz4]
    have hl : A ({ z3.lateReset with prev := add x (div z.hyst (lit 2)) } : ZC F).peak ∧ B ({ z3.lateReset with prev := add x (div z.hyst (lit 2)) } : ZC F).peakUpdate := by
      rw [ZC.lateReset]; split <;> exact h3
    rw [ZC.advance]
    split
    · simp only []; split <;> exact hl
    · exact hl
  have hcr : (A z2.peak ∧ B z2.peakUpdate) → A z2.capReset.peak ∧ B z2.capReset.peakUpdate := by
    intro h2; rw [ZC.capReset]; split <;> exact h2
  rw [ZC.preShift, hr1] at hz2
  by_cases hr : z.ready = true
  · rw [if_pos hr] at hz2
    simp only [bind, Except.bind] at hz2
    split at hz2
    · cases hz2
    rename_i z1 hz1
    injection hz2 with hz2
    have hz1' : z1.peakUpdate = z.capReset.idleReset.peakUpdate := by
      rw [ZC.shift] at hz1
      simp only [bind, Except.bind] at hz1
      split at hz1
      · cases hz1
      split at hz1
      · cases hz1
      split at hz1
      · cases hz1
      injection hz1 with hz1
      rw [← hz1]
    have h2 : A z2.peak ∧ B z2.peakUpdate := by
      rw [← hz2]
      exact ⟨by show A z1.peakUpdate; rw [hz1', hc1.2]; exact hy hr, h0⟩
    exact hfin (detect_vals2 hBA (hcr h2) hs hz3)
  · rw [if_neg hr] at hz2
    injection hz2 with hz2
    subst hz2
    exact hfin (detect_vals2 hBA (hcr (by rw [hc1.1, hc1.2]; exact hn (by simpa using hr))) hs hz3)


/-- Analyses go on. -/
theorem zseq_ready {W t τ : Nat} (hW : ZC.WOk W) {x : Nat → F} {Z : Nat → ZC F} (h : ZSeq y hy W x Z) (ht : Tone y hy N r w)
    (hN : 2 * N ≤ W) {b : Int} {m : Nat} {hd gs : List (ZInfo F)} (hτ : τ % N = t % N) (hb : 0 ≤ b)
    (hi : TInv y hy N r w W (τ / N) (τ % N) b m hd gs [] (Z t)) (n : Nat) :
    ∃ b' m' hd' gs', 0 ≤ b' ∧ TInv y hy N r w W ((τ + n) / N) ((τ + n) % N) b' m' hd' gs' [] (Z (t + n)) ∧
      ((∀ i, i < n → (Z (t + i)).ready = false) → b' = b) := by
  have hNpos : 0 < N := by have := ht.rw; omega
  have hge := hW.ge
  induction n with
  | zero => exact ⟨b, m, hd, gs, hb, hi, fun _ => rfl⟩
  | succ n ih =>
    obtain ⟨b1, m1, hd1, gs1, hb1, i1, c1⟩ := ih
    have hmod : (τ + n) % N = (t + n) % N := by rw [Nat.add_mod, hτ, ← Nat.add_mod]
    obtain ⟨z', b', m', hd', gs', js', e, i', hl, hbb, hle, -, -⟩ := tinv_step ht i1 hW hN (tinv_cap ht i1 (by simp) hW hN) (x (t + n)) (by
      rw [h.off, hmod, ← ht.at ((t + n) / N) ((t + n) % N)]; congr 1; rw [Nat.mul_comm, Nat.div_add_mod])
    have hz : z' = Z (t + n + 1) := by
      have := h.step (t + n)
      rw [e] at this; injection this with this; injection this
    have := List.length_eq_zero_iff.1 (by simpa using hl)
    subst this
    rw [hz, (posK' hNpos).1, (posK' hNpos).2] at i'
    refine ⟨b', m', hd', gs', by omega, i', fun hn => ?_⟩
    rw [hbb (Or.inl hb1), hn n (by omega), c1 fun i hi' => hn i (by omega)]
    simp

theorem zseq_live {W t τ : Nat} (hW : ZC.WOk W) {x : Nat → F} {Z : Nat → ZC F} (h : ZSeq y hy W x Z) (ht : Tone y hy N r w)
    (hN : 2 * N ≤ W) {b : Int} {m : Nat} {hd gs : List (ZInfo F)} (hτ : τ % N = t % N) (hb : 0 ≤ b)
    (hi : TInv y hy N r w W (τ / N) (τ % N) b m hd gs [] (Z t)) : ∃ n, n ≤ W + w + 1 ∧ (Z (t + n)).ready = true := by
  by_contra hc
  push Not at hc
  have hc' : ∀ n, n ≤ W + w + 1 → (Z (t + n)).ready = false := fun n hn => by simpa using hc n hn
  obtain ⟨b', m', hd', gs', -, i', c'⟩ := zseq_ready hW h ht hN hτ hb hi (W + w + 1)
  have hbb := c' fun i hi' => hc' i (by omega)
  have h1 := hi.hb
  have h2 := i'.hb
  have h3 := i'.vf
  have d : ∀ u : Nat, ((u / N : Nat) : Int) * N + (u % N : Nat) = (u : Nat) := by
    intro u
    have := Nat.div_add_mod u N
    rw [Nat.mul_comm] at this
    exact_mod_cast this
  rw [d] at h1 h2
  have : 0 ≤ (Z t).vframe := by rw [ZC.vframe]; split <;> omega
  push_cast at h2
  omega

/-- From any state at the start of a gap: in at most `5N + 2(W+w+1) + N + 2(W+w+2)` samples the storage and the peaks are
those of the tone. -/
theorem zseq_lock {W : Nat} (hW : ZC.WOk W) {x : Nat → F} {Z : Nat → ZC F} (h : ZSeq y hy W x Z) (ht : Tone y hy N r w)
    (hN : 2 * N ≤ W) (hlast : r + w + 1 = N) (hacc0 : Accept y r w (lit 0))
    (hacc : ∀ i, i < N → lt (lit 0) (y i) = true → Accept y r w (y i)) :
    ∃ t τ b m hd gs, t ≤ 6 * N + 4 * (W + w + 1) + 2 ∧ τ % N = t % N ∧ 0 ≤ b ∧ TInv y hy N r w W (τ / N) (τ % N) b m hd gs [] (Z t) ∧
      Accept y r w (Z t).peak ∧ Accept y r w (Z t).peakUpdate := by
  have hNpos : 0 < N := by omega
  have ha := zseq_anchor hW h ht hN hlast
  have hsh := h.shift (5 * N)
  have hyp : (fun u => y (5 * N + u)) = y := by funext u; exact ht.at _ _
  rw [hyp] at hsh
  obtain ⟨t, τ, b, m, hd, gs, hle, hτ, hb, hi⟩ := zseq_clean hW hsh ht hN hlast ha
  have hb0 : 0 ≤ b := by omega
  have hyv : ∀ u, lt (lit 0) (add (x u) (div (Z u).hyst (lit 2))) = true → Accept y r w (add (x u) (div (Z u).hyst (lit 2))) := by
    intro u hu
    rw [h.hyst, h.off] at hu ⊢
    have : y u = y (u % N) := by
      rw [← ht.at (u / N) (u % N)]; congr 1; rw [Nat.mul_comm, Nat.div_add_mod]
    rw [this] at hu ⊢
    exact hacc _ (Nat.mod_lt u hNpos) hu
  obtain ⟨n1, hn1, hr1⟩ := zseq_live hW hsh ht hN hτ hb0 hi
  -- the first analysis
  have hpu : ∀ n, Accept y r w (Z (5 * N + (t + n1) + 1 + n)).peakUpdate := by
    intro n
    induction n with
    | zero =>
      exact (step_vals2 (A := fun _ => True) (fun _ _ => trivial) hacc0 (fun hh => by rw [hr1] at hh; cases hh) (fun _ => trivial)
        (hyv _) (h.step (5 * N + (t + n1)))).2
    | succ n ih =>
      exact (step_vals2 (A := fun _ => True) (fun _ _ => trivial) hacc0 (fun _ => ⟨trivial, ih⟩) (fun _ => trivial)
        (hyv _) (h.step (5 * N + (t + n1) + 1 + n))).2
  obtain ⟨b2, m2, hd2, gs2, hb2, i2, -⟩ := zseq_ready hW hsh ht hN hτ hb0 hi (n1 + 1)
  have hτ2 : (τ + (n1 + 1)) % N = (t + (n1 + 1)) % N := by rw [Nat.add_mod, hτ, ← Nat.add_mod]
  obtain ⟨n2, hn2, hr2⟩ := zseq_live hW hsh ht hN hτ2 hb2 i2
  obtain ⟨b3, m3, hd3, gs3, hb3, i3, -⟩ := zseq_ready hW hsh ht hN hτ2 hb2 i2 (n2 + 1)
  have e3 : 5 * N + (t + (n1 + 1) + n2) = 5 * N + (t + n1) + 1 + n2 := by omega
  have hpk : Accept y r w (Z (5 * N + (t + (n1 + 1) + (n2 + 1)))).peak ∧ Accept y r w (Z (5 * N + (t + (n1 + 1) + (n2 + 1)))).peakUpdate := by
    have := step_vals2 (A := Accept y r w) (B := Accept y r w) (fun _ hh => hh) hacc0 (fun hh => by rw [hr2] at hh; cases hh)
      (fun _ => by rw [e3]; exact hpu n2) (hyv _) (h.step (5 * N + (t + (n1 + 1) + n2)))
    exact this
  refine ⟨5 * N + (t + (n1 + 1) + (n2 + 1)), τ + (n1 + 1) + (n2 + 1), b3, m3, hd3, gs3, by omega, ?_, hb3, i3, hpk⟩
  rw [Nat.mul_add_mod_self_right, Nat.add_mod, hτ2, ← Nat.add_mod]
end
end Verif
