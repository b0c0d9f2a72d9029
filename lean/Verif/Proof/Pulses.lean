import Verif.Proof.ZeroCrossing
/-! The data recorded with each edge of `zero_crossing`: invariant over the history of (offset) samples. -/
namespace Verif
open FloatOps
variable {F : Type} [FloatOps F]
attribute [local irreducible] i32 u64

/-- Specification: the peak and the width of a pulse after some of its samples, `k` being the number of
frames since the leading edge of the first of the remaining samples.  Only samples above zero count.  The
peak is the running maximum; the width is the number of frames from the leading edge to the first such
sample below 30% of the peak so far. -/
def pulseData : F × F → Nat → List F → F × F
  | a, _, [] => a
  | (peak, width), k, s :: l =>
    if lt (lit 0) s then
      let peak' := FloatOps.max s peak
      pulseData (peak', if eq width (lit 0) && lt s (mul peak' (lit (3 / 10))) then ofInt k else width) (k + 1) l
    else pulseData (peak, width) (k + 1) l

/-- Specification: the sample at time `a - 1`; zero if there is none. -/
def sampleBefore (ss : List F) (a : Nat) : F :=
  match a with
  | 0 => lit 0
  | a + 1 => (ss[a]?).getD (lit 0)

theorem pulseData_snoc (a : F × F) (k : Nat) (l : List F) (s : F) :
    pulseData a k (l ++ [s]) = pulseData (pulseData a k l) (k + l.length) [s] := by
  induction l generalizing a k with
  | nil => simp [pulseData]
  | cons x l ih =>
    obtain ⟨p, w⟩ := a
    simp only [List.cons_append, pulseData, List.length_cons]
    split
    · rw [ih, show k + 1 + l.length = k + (l.length + 1) by omega]; simp [pulseData]
    · rw [ih, show k + 1 + l.length = k + (l.length + 1) by omega]; simp [pulseData]

/-- The data of edge `e` agree with the samples `ss` from its leading edge until the time `fin`. -/
def Rec (ss : List F) (o : Int) (e : ZInfo F) (fin : Int) : Prop :=
  ∃ (a : Nat) (s0 : F) (tl : List F), lt (lit 0) s0 = true ∧ o + e.leading = a ∧ fin = a + (tl.length + 1 : Nat) ∧
    (s0 :: tl) <+: ss.drop a ∧ (e.peak, e.width) = pulseData (s0, lit 0) 1 tl ∧
    e.crossing = (sampleBefore ss a, s0)

theorem sampleBefore_append (ss : List F) (s : F) (a : Nat) (h : a ≤ ss.length) :
    sampleBefore (ss ++ [s]) a = sampleBefore ss a := by
  cases a with
  | zero => rfl
  | succ a => simp only [sampleBefore]; rw [List.getElem?_append_left (by omega)]

theorem Rec.append {ss : List F} {o : Int} {e : ZInfo F} {fin : Int} (h : Rec ss o e fin) (s : F) :
    Rec (ss ++ [s]) o e fin := by
  obtain ⟨a, s0, tl, h0, h1, h2, h3, h4, h5⟩ := h
  have hl := h3.length_le
  rw [List.length_cons, List.length_drop] at hl
  refine ⟨a, s0, tl, h0, h1, h2, ?_, h4, ?_⟩
  · rw [List.drop_append_of_le_length (by omega)]
    exact h3.trans (List.prefix_append _ _)
  · rw [sampleBefore_append _ _ _ (by omega)]; exact h5

/-- All stored edges agree with the samples. -/
def RecAll (ss : List F) (o : Int) : Bool → List (ZInfo F) → Prop
  | false, es => ∀ e ∈ es, Rec ss o e (o + e.trailing)
  | true, [] => True
  | true, e :: es => Rec ss o e ss.length ∧ ∀ e ∈ es, Rec ss o e (o + e.trailing)

theorem recAll_nil (ss : List F) (o : Int) (b : Bool) : RecAll ss o b ([] : List (ZInfo F)) := by
  cases b
  · intro e he; cases he
  · trivial

namespace ZC

theorem rec_back {ss : List F} {o W b : Int} {n : Nat} {es : List (ZInfo F)} (h : Closed W b es)
    (hr : ∀ e ∈ es, Rec ss o e (o + e.trailing))
    (hW : 2 * W < 2 ^ 29) (hb : b ≤ 2 ^ 30) (hn : 2 * (n : Int) ≤ W) :
    ∀ e ∈ es.map (ZInfo.back n), Rec ss (o + n) e (o + n + e.trailing) := by
  induction es generalizing b with
  | nil => intro e he; simp at he
  | cons e es ih =>
    obtain ⟨h1, h2, h3, h4, h5, h6⟩ := h
    intro x hx
    rw [List.map_cons, List.mem_cons] at hx
    rcases hx with rfl | hx
    · have i1 : i32 (e.leading - n) = e.leading - n := i32_id (by omega) (by omega)
      have i2 : i32 (e.trailing - n) = e.trailing - n := i32_id (by omega) (by omega)
      obtain ⟨a, s0, tl, g0, g1, g2, g3, g4, g5⟩ := hr e (by simp)
      refine ⟨a, s0, tl, g0, ?_, ?_, g3, g4, g5⟩
      · simp only [ZInfo.back, i1]; omega
      · simp only [ZInfo.back, i2]; omega
    · exact ih h6 (fun e he => hr e (by simp [he])) (by omega) x hx

theorem detect_rec {ss : List F} {frame : Nat} {st : Bool} {es : List (ZInfo F)} {prev : F} (hyst s : F)
    (hp : prev = sampleBefore ss ss.length) (hfr : frame < 2 ^ 31)
    (h : RecAll ss (ss.length - frame) st es) (hst : st = true → es ≠ [])
    (hld : st = true → ∀ e ∈ es.head?, 0 ≤ e.leading) :
    let st' := if lt (lit 0) s then true else if st && lt s hyst then false else st
    RecAll (ss ++ [s]) (ss.length - frame) st' (detectEdges prev frame hyst s st es) := by
  intro st'
  have hcat : ∀ {tl : List F} {s0 : F} {a : Nat}, (s0 :: tl) <+: ss.drop a → (ss.length : Int) = a + (tl.length + 1 : Nat) →
      (s0 :: (tl ++ [s])) <+: (ss ++ [s]).drop a := by
    intro tl s0 a h1 h2
    have hl := h1.length_le
    rw [List.length_cons, List.length_drop] at hl
    have : s0 :: tl = ss.drop a := h1.eq_of_length (by rw [List.length_cons, List.length_drop]; omega)
    rw [List.drop_append_of_le_length (by omega), ← this]
    exact List.prefix_refl _
  cases st with
  | false =>
    rw [detectEdges]
    by_cases hs : lt (lit 0) s = true
    · have hst' : st' = true := by simp only [st', hs, if_true]
      rw [if_pos hs, hst']
      refine ⟨⟨ss.length, s, [], hs, by simp only; omega, by simp, by simp, rfl, ?_⟩, fun e he => (h e he).append _⟩
      rw [sampleBefore_append _ _ _ (le_refl _), ← hp]
    · have hst' : st' = false := by simp [st', hs]
      rw [if_neg hs, hst']
      exact fun e he => (h e he).append _
  | true =>
    match es, hst rfl with
    | e :: es, _ =>
      obtain ⟨⟨a, s0, tl, g0, g1, g2, g3, g4, g5⟩, h2⟩ := h
      rw [detectEdges]
      have hl := g3.length_le
      rw [List.length_cons, List.length_drop] at hl
      by_cases hs : lt (lit 0) s = true
      · have hst' : st' = true := by simp only [st', hs, if_true]
        rw [if_pos hs, hst']
        refine ⟨⟨a, s0, tl ++ [s], g0, g1, by simp; omega, hcat g3 g2, ?_, ?_⟩, fun e he => (h2 e he).append _⟩
        · rw [pulseData_snoc, ← g4]
          have hle0 := hld rfl e (by simp)
          have hu : u64 ((frame : Int) - e.leading) = 1 + tl.length := by
            have := u64_id (x := (frame : Int) - e.leading) (by omega) (by omega)
            omega
          simp only [pulseData, hs, if_true, updatePeak, hu]
        · rw [sampleBefore_append _ _ _ (by omega)]; exact g5
      · by_cases hc : lt s hyst = true
        · have hst' : st' = false := by simp [st', hs, hc]
          rw [if_neg hs, if_pos hc, hst']
          intro x hx
          rw [List.mem_cons] at hx
          rcases hx with rfl | hx
          · exact Rec.append ⟨a, s0, tl, g0, g1, by simp only; omega, g3, g4, g5⟩ s
          · exact (h2 x hx).append _
        · have hst' : st' = true := by simp [st', hs, hc]
          rw [if_neg hs, if_neg hc, hst']
          refine ⟨⟨a, s0, tl ++ [s], g0, g1, by simp; omega, hcat g3 g2, ?_, ?_⟩, fun e he => (h2 e he).append _⟩
          · rw [pulseData_snoc, ← g4]
            simp [pulseData, hs]
          · rw [sampleBefore_append _ _ _ (by omega)]; exact g5

omit [FloatOps F] in
theorem reset_vframe (z : ZC F) : z.reset.vframe ≤ z.vframe := by
  by_cases hr : z.ready = true
  · simp [vframe, ZC.reset, hr]
  · simp [vframe, ZC.reset, hr]

/-- A call records the data of the pulses faithfully. -/
theorem step_rec {W : Nat} (hW : WOk W) {z : ZC F} (h : Inv W z) (x : F) (z' : ZC F) (b : Bool)
    (e : z.step x = .ok (z', b)) (ss : List F) (hp : z.prev = sampleBefore ss ss.length)
    (hf : z.vframe ≤ ss.length)
    (hr : RecAll ss (ss.length - z.vframe) z.state z.edges) :
    z'.prev = add x (div z.hyst (lit 2)) ∧ z'.vframe ≤ ss.length + 1 ∧
    RecAll (ss ++ [add x (div z.hyst (lit 2))]) ((ss.length + 1 : Int) - z'.vframe) z'.state z'.edges := by
  have hcr : z.ready = true → z.numEdges < z.info.data.length := by
    intro hr
    have hle := h.le
    have := (h.ready hr).1
    rcases Nat.lt_or_ge z.numEdges z.info.data.length with h1 | h1
    · exact h1
    · rw [h.full (by omega)] at this; cases this
  obtain ⟨i1, n1, r1, e1, hy1, p1, c1⟩ := capReset_ok h hcr
  obtain ⟨i2, r2, hy2, s2, n2, f2, p2⟩ := idleReset_ok i1
  obtain ⟨z3, e3, i3, r3, fr3, s3, hy3, p3, n3, eq3, ed3⟩ := preShift_ok hW i2
  have n3' := n3 (by rw [n2, f2]; exact n1)
  obtain ⟨i4, n4, r4, e4, hy4, p4, -⟩ := capReset_ok i3 (by intro _; exact n3')
  have e4' := e4 n3'
  obtain ⟨z5, e5, m5, fr5, hy5, s5, ed5⟩ := detect_ok hW i4 (by rw [r4, r3]) n4 (add x (div z.hyst (lit 2)))
  obtain ⟨m6, f6, hy6, s6, c6⟩ := lateReset_ok m5
  have m7 : Mid W { z5.lateReset with prev := add x (div z.hyst (lit 2)) } :=
    ⟨⟨m6.window, m6.wf, m6.cap, m6.le⟩, m6.full, m6.ready, m6.frame, m6.ok⟩
  obtain ⟨i8, s8, hy8, c8⟩ := advance_ok hW m7 f6
  have ez : z.step x = .ok ((ZC.advance { z5.lateReset with prev := add x (div z.hyst (lit 2)) }),
      (ZC.advance { z5.lateReset with prev := add x (div z.hyst (lit 2)) }).state) := by
    simp only [step, updateState, e3, e5, bind, Except.bind]
    rfl
  rw [ez] at e
  injection e with e
  injection e with ea eb
  subst ea
  -- frame counters before detection
  have hv1 : z.capReset.vframe ≤ ss.length := by
    rcases c1 with c1 | c1
    · rw [c1]; exact hf
    · rw [c1]
      have := reset_vframe z
      omega
  have hv2 : z.capReset.idleReset.vframe ≤ ss.length := by
    rw [idleReset]
    split
    · have := reset_vframe z.capReset
      omega
    · exact hv1
  have hv3 : (z3.frame : Int) ≤ ss.length := by
    rw [fr3]
    have : (z.capReset.idleReset.frame : Int) ≤ z.capReset.idleReset.vframe := by
      rw [vframe]; split <;> omega
    omega
  have hprev3 : z3.prev = sampleBefore ss ss.length := by rw [p3, p2, p1, hp]
  have hfr5 : z5.frame = z3.frame := by rw [fr5, e4']
  refine ⟨?_, ?_, ?_⟩
  · rw [advance]; split
    · simp only []; split <;> rfl
    · rfl
  · have hfl : z5.lateReset.frame ≤ z5.frame := by
      rw [lateReset]; split
      · exact Nat.zero_le _
      · exact le_refl _
    have hrl : z5.lateReset.ready = false := m6.ready
    have hwl := m6.window
    have hge := hW.ge
    rw [advance]; split
    · rename_i hc
      simp only [] at hc
      simp only []; split
      · simp only [vframe, if_true]; omega
      · simp only [vframe, ZC.reset, hrl]; simp; omega
    · simp only [vframe, hrl]; simp; omega
  rcases c8 with ⟨c8, v8⟩ | c8
  swap
  · rw [c8]; exact recAll_nil _ _ _
  rw [c8, v8, s8]
  show RecAll _ (_ - (((z5.lateReset.frame : Nat) : Int) + 1)) z5.lateReset.state z5.lateReset.edges
  rcases c6 with ⟨c6, -⟩ | c6
  swap
  · rw [c6, reset_edges]; exact recAll_nil _ _ _
  rw [c6, fr5, s5, ed5, e4', show ((ss.length + 1 : Int) - (z3.frame + 1)) = ss.length - z3.frame by omega]
  have hne : z3.state = true → z3.edges ≠ [] := by
    intro hs he
    have := i3.ok
    rw [hs, he] at this
    exact this
  have hlt3 : z3.frame < 2 ^ 31 := by
    have h1 := i3.frame
    have h2 := hW.lt
    rw [vframe, r3] at h1
    simp at h1
    omega
  have hld3 : z3.state = true → ∀ e ∈ z3.edges.head?, 0 ≤ e.leading := by
    intro hs e he
    have hok := i3.ok
    rw [hs] at hok
    cases hed : z3.edges with
    | nil => rw [hed] at he; simp at he
    | cons a l => rw [hed] at he hok; simp at he; subst he; exact hok.1
  apply detect_rec z3.hyst _ hprev3 hlt3 _ hne hld3
  have hr1 : RecAll ss (ss.length - z.capReset.vframe) z.capReset.state z.capReset.edges := by
    rcases c1 with c1 | c1
    · rw [c1]; exact hr
    · rw [c1, reset_edges]; exact recAll_nil _ _ _
  have hr2 : RecAll ss (ss.length - z.capReset.idleReset.vframe) z.capReset.idleReset.state z.capReset.idleReset.edges := by
    rw [idleReset]
    split
    · rw [reset_edges]; exact recAll_nil _ _ _
    · exact hr1
  by_cases hrd : z.capReset.idleReset.ready = true
  · obtain ⟨hs0, hn0, hfr0⟩ := i2.ready hrd
    have hok := i2.ok
    rw [hs0] at hok hr2
    rw [ed3 hrd, s3, hs0]
    have hfrm := i2.frame
    have hvf : z.capReset.idleReset.vframe = z.capReset.idleReset.frame + (W / 2 : Nat) := by
      simp [vframe, hrd, i2.window]
    have hlt := hW.lt
    have hge := hW.ge
    intro e he
    have := rec_back (n := W / 2) hok hr2 (by omega) (by omega) (by omega) e (shiftEdges_subset _ _ e he)
    rw [show (ss.length : Int) - z3.frame = ss.length - z.capReset.idleReset.vframe + (W / 2 : Nat) by
      rw [hvf, fr3]; omega]
    exact this
  · have hrd' : z.capReset.idleReset.ready = false := by simpa using hrd
    have hvf : z.capReset.idleReset.vframe = z.capReset.idleReset.frame := by simp [vframe, hrd']
    rw [eq3 hrd']
    rw [hvf] at hr2
    exact hr2

/-- The samples the detector works with. -/
def offsetBy (hyst : F) (xs : List F) : List F := xs.map fun x => add x (div (neg hyst) (lit 2))

theorem run_rec {W : Nat} (hW : WOk W) {z : ZC F} (h : Inv W z) {hy : F} (hh : z.hyst = neg hy) (ss0 : List F)
    (hp : z.prev = sampleBefore ss0 ss0.length) (hf : z.vframe ≤ ss0.length)
    (hr : RecAll ss0 (ss0.length - z.vframe) z.state z.edges) (xs : List F) (z' : ZC F) (ys : List Bool)
    (e : runC ZC.step z xs = .ok (z', ys)) :
    z'.vframe ≤ (ss0 ++ offsetBy hy xs).length ∧
    RecAll (ss0 ++ offsetBy hy xs) ((ss0 ++ offsetBy hy xs).length - z'.vframe) z'.state z'.edges := by
  induction xs generalizing z ss0 ys with
  | nil =>
    injection e with e
    injection e with e1 e2
    subst e1
    simpa [offsetBy] using ⟨hf, hr⟩
  | cons x xs ih =>
    obtain ⟨z1, e1, i1, h1, -⟩ := step_ok hW h x
    rw [runC, e1] at e
    simp only [bind, Except.bind] at e
    match e2 : runC ZC.step z1 xs, e with
    | .error _, e => cases e
    | .ok (z2, ys2), e =>
      injection e with e
      injection e with ea eb
      subst ea
      obtain ⟨k1, k2, k3⟩ := step_rec hW h x z1 _ e1 ss0 hp hf hr
      rw [hh] at k1 k3 h1
      have hlast : z1.prev = sampleBefore (ss0 ++ [add x (div (neg hy) (lit 2))]) (ss0 ++ [add x (div (neg hy) (lit 2))]).length := by
        rw [k1, List.length_append]; simp [sampleBefore]
      have := ih i1 h1 (ss0 ++ [add x (div (neg hy) (lit 2))]) hlast (by simpa using k2) (by simpa using k3) ys2 e2
      simpa [offsetBy] using this

theorem recAll_closed {ss : List F} {o : Int} {st : Bool} {es : List (ZInfo F)} (h : RecAll ss o st es) (j : Nat)
    (hj : j < es.length) (h0 : st = true → 0 < j) : Rec ss o es[j] (o + es[j].trailing) := by
  cases st with
  | false => exact h _ (List.getElem_mem hj)
  | true =>
    cases es with
    | nil => simp at hj
    | cons a es =>
      have := h0 rfl
      obtain ⟨j, rfl⟩ : ∃ k, j = k + 1 := ⟨j - 1, by omega⟩
      exact h.2 _ (List.getElem_mem (by simpa using hj))

theorem recAll_open {ss : List F} {o : Int} {es : List (ZInfo F)} (h : RecAll ss o true es)
    (hj : 0 < es.length) : Rec ss o es[0] ss.length := by
  cases es with
  | nil => simp at hj
  | cons a es => exact h.1

end ZC
end Verif
