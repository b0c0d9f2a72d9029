import Verif.Model.PeriodDetector
import Verif.Proof.ZeroCrossing
import Verif.Props.Bitset
/-! Helper lemmas for `period_detector`. -/
namespace Verif
open FloatOps
variable {F : Type} [FloatOps F]
attribute [local irreducible] i32 u64

/-- The call either succeeds with a result satisfying `Q`, or performs an out-of-range conversion of a
floating value to an integer. -/
def Safe {α} (r : C α) (Q : α → Prop) : Prop :=
  (∃ a, r = .ok a ∧ Q a) ∨ r = .error .badFloatCast

theorem Safe.bind {α β} {r : C α} {f : α → C β} {Q : α → Prop} {R : β → Prop} (h : Safe r Q)
    (hf : ∀ a, Q a → Safe (f a) R) : Safe (r >>= f) R := by
  rcases h with ⟨a, rfl, hq⟩ | rfl
  · exact hf a hq
  · exact Or.inr rfl

theorem Safe.ok {α} {a : α} {Q : α → Prop} (h : Q a) : Safe (.ok a : C α) Q := Or.inl ⟨a, rfl, h⟩

theorem Safe.mono {α} {r : C α} {Q R : α → Prop} (h : Safe r Q) (hf : ∀ a, Q a → R a) : Safe r R := by
  rcases h with ⟨a, rfl, hq⟩ | rfl
  · exact Or.inl ⟨a, rfl, hf a hq⟩
  · exact Or.inr rfl

namespace PD
open ZC

/-- The lags that stay inside the bitset. -/
structure BitsOk (W : Nat) (b : Bitset 64) : Prop where
  size : b.size = W
  ok : WOk W

theorem BitsOk.len {W : Nat} {b : Bitset 64} (h : BitsOk W b) : ∃ n, W = 64 * n ∧ 2 ≤ n ∧ b.size = 64 * n := by
  obtain ⟨n, hn⟩ := h.ok.even
  exact ⟨n, hn, by have := h.ok.ge; omega, by rw [h.size, hn]⟩

/-- The compared length of the autocorrelation: half the window less one word, at least one word. -/
def cmpLen (W : Nat) : Nat := 64 * max (W / 64 / 2 - 1) 1

theorem cmpLen_le {W : Nat} (h : WOk W) : 2 * cmpLen W ≤ W := by
  have := h.ge
  obtain ⟨n, hn⟩ := h.even
  rw [cmpLen]; omega

theorem acf_ok {W : Nat} {b : Bitset 64} (h : BitsOk W b) (pos : Nat) (hp : pos ≤ W / 2) :
    ∃ c, Acf.acf b pos = .ok c ∧ c ≤ cmpLen W := by
  obtain ⟨n, hn, h2, hs⟩ := h.len
  have hlt := h.ok.lt
  obtain ⟨c, e, hc, -⟩ := C15_periodic b _ (bits_exists (by omega) b) pos n hs h2 (by omega)
    (by rw [hs]; omega)
  refine ⟨c, e, ?_⟩
  rw [cmpLen, hn, Nat.mul_div_cancel_left _ (by omega : 0 < 64)]
  exact hc

theorem midArray_eq {W : Nat} {b : Bitset 64} (h : BitsOk W b) : Acf.midArray b * 64 = cmpLen W := by
  have hlt := h.ok.lt
  have hge := h.ok.ge
  rw [Acf.midArray, h.size, cmpLen, show (W / 64 / 2 + (2 ^ 64 - 1)) % 2 ^ 64 = W / 64 / 2 - 1 by omega, Nat.mul_comm]

theorem searchUp_ok {W : Nat} {b : Bitset 64} (h : BitsOk W b) (k p count period : Nat)
    (hc : count ≤ cmpLen W) (hp : period ≤ W / 2) (hk : k = cmpLen W - p) :
    ∃ c p', searchUp b k p count period = .ok (c, p') ∧ c ≤ cmpLen W ∧ p' ≤ W / 2 := by
  have hcl := cmpLen_le h.ok
  induction k generalizing p count period with
  | zero => exact ⟨count, period, rfl, hc, hp⟩
  | succ m ih =>
    rw [searchUp]
    obtain ⟨c, e, hc2⟩ := acf_ok h p (by omega)
    rw [e]
    simp only [bind, Except.bind]
    split
    · exact ⟨_, _, rfl, hc, hp⟩
    · exact ih (p + 1) c p hc2 (by omega) (by omega)

theorem searchDown_ok {W : Nat} {b : Bitset 64} (h : BitsOk W b) (k p count period : Nat)
    (hc : count ≤ cmpLen W) (hp : period ≤ W / 2) (hp0 : p ≤ W / 2) :
    ∃ c p', searchDown b k p count period = .ok (c, p') ∧ c ≤ cmpLen W ∧ p' ≤ W / 2 := by
  induction k generalizing p count period with
  | zero => exact ⟨count, period, rfl, hc, hp⟩
  | succ m ih =>
    rw [searchDown]
    obtain ⟨c, e, hc2⟩ := acf_ok h p hp0
    rw [e]
    simp only [bind, Except.bind]
    split
    · exact ⟨_, _, rfl, hc, hp⟩
    · exact ih (p - 1) c p hc2 hp0 (by omega)

theorem ok_bind {α β} (a : α) (f : α → C β) : ((Except.ok a : C α) >>= f) = f a := rfl

theorem acPeriod_ok {W : Nat} {b : Bitset 64} (h : BitsOk W b) (mn period : Nat) (first : Bool)
    (hp : period ≤ W / 2) (hp0 : 0 < period) :
    ∃ c p', acPeriod b mn period first = .ok (c, p') ∧ p' ≤ W / 2 ∧ ∀ n, c = some n → n ≤ cmpLen W := by
  have hlt := h.ok.lt
  obtain ⟨c, e, hc⟩ := acf_ok h period hp
  obtain ⟨c2, e2, hc2⟩ := acf_ok h (period / 2) (by omega)
  have hd : (period + (2 ^ 64 - 1)) % 2 ^ 64 = period - 1 := by omega
  rw [acPeriod, e, hd, ok_bind]
  by_cases hf : (first && c == 0) = true
  · rw [if_pos hf, e2, ok_bind]
    split
    · exact ⟨none, period, rfl, hp, by simp⟩
    · exact ⟨some c, period, rfl, hp, by simp; exact hc⟩
  · rw [if_neg hf]
    by_cases h32 : period < 32
    · rw [if_pos h32, midArray_eq h]
      obtain ⟨c3, p3, e3, hc3, hp3⟩ := searchUp_ok h _ (period + 1) c period hc hp rfl
      rw [e3, ok_bind]
      dsimp only
      obtain ⟨c4, p4, e4, hc4, hp4⟩ := searchDown_ok h (period - 1 - mn) (period - 1) c3 p3 hc3 hp3 (by omega)
      rw [e4, ok_bind]
      exact ⟨some c4, p4, rfl, hp4, by simp; exact hc4⟩
    · rw [if_neg h32]; exact ⟨some c, period, rfl, hp, by simp; exact hc⟩

/-! ### edges -/

theorem edges_pair {W : Nat} (hW : WOk W) {z : ZC F} (h : Inv W z) {i j : Nat} (hij : i < j) (hj : j < z.numEdges) :
    ∃ a b, z.edge i = .ok a ∧ z.edge j = .ok b ∧ a.leading < a.trailing ∧ a.trailing < b.leading ∧
      (∃ p, a.period b = .ok p ∧ 2 ≤ p) ∧ ∃ q, a.fractionalPeriod b = .ok q := by
  have hlen := h.toRep.edges_length
  have hlt := hW.lt
  have hge := hW.ge
  have hf := h.frame
  have h1 : z.numEdges - 1 - i < z.edges.length := by omega
  have h2 : z.numEdges - 1 - j < z.edges.length := by omega
  obtain ⟨p1, p2⟩ := ZC.edgesOk_pair h.ok (z.numEdges - 1 - j) (z.numEdges - 1 - i) (by omega) h1
  have m1 := ZC.edgesOk_mem h.ok (by omega) (List.getElem_mem h1)
  have m2 := ZC.edgesOk_mem h.ok (by omega) (List.getElem_mem h2)
  refine ⟨_, _, ZC.edge_ok h.toRep i (by omega), ZC.edge_ok h.toRep j hj, p1, p2, ?_, ?_⟩
  · refine ⟨_, by rw [ZInfo.period, if_pos (by omega), subInt_ok (by omega) (by omega)]; rfl, ?_⟩
    have := u64_id (x := (z.edges[z.numEdges - 1 - j]).leading - (z.edges[z.numEdges - 1 - i]).leading)
      (by omega) (by omega)
    omega
  · exact ⟨_, by rw [ZInfo.fractionalPeriod, if_pos (by omega), subInt_ok (by omega) (by omega)]; rfl⟩

/-- The static part of the detector's state. -/
structure PRep (W : Nat) (p : PD F) : Prop where
  bits : BitsOk W p.bits
  mid : p.midPoint = W / 2
  inv : Inv W p.zc

/-- A collected estimate: two stored edges in order, and a periodicity computed from some count. -/
def SOk (W : Nat) (p : PD F) (x : SInfo F) : Prop :=
  x.i1 < x.i2 ∧ x.i2 < p.zc.numEdges ∧ ∃ c, c ≤ cmpLen W ∧ x.periodicity = periodicityOf p c

def COk (W : Nat) (p : PD F) (c : Coll F) : Prop := ∀ x, c.fundamental = some x → SOk W p x

theorem periodOf_ok {W : Nat} {p : PD F} (h : PRep W p) {x : SInfo F} (hx : SOk W p x) :
    ∃ q, periodOf p.zc x = .ok q := by
  obtain ⟨a, b, ea, eb, -, -, -, q, eq⟩ := edges_pair h.bits.ok h.inv hx.1 hx.2.1
  exact ⟨q, by rw [periodOf, ea, eb]; exact eq⟩

theorem save_ok {W : Nat} {p : PD F} (h : PRep W p) {x : SInfo F} (hx : SOk W p x) :
    ∃ c, save p.zc x = .ok c ∧ COk W p c := by
  have hx' : SOk W p { x with harmonic := 1 } := hx
  obtain ⟨q, e⟩ := periodOf_ok h hx'
  refine ⟨_, by rw [save]; simp only [e, bind, Except.bind]; rfl, ?_⟩
  intro y hy
  injection hy with hy
  rw [← hy]; exact hx'

theorem toI32_safe (a : F) : Safe (toI32 a) fun _ => True := by
  rw [toI32]
  split
  · split
    · exact Safe.ok trivial
    · exact Or.inr rfl
  · exact Or.inr rfl

theorem trySub_ok {W : Nat} {p : PD F} (h : PRep W p) {c : Coll F} (hc : COk W p c) {fund x : SInfo F}
    (hx : SOk W p x) (hm : Nat) (xp : F) :
    ∃ r, trySubHarmonic p c fund hm x xp = .ok r ∧ COk W p r.2 := by
  rw [trySubHarmonic]
  split
  · split
    · simp only []
      split
      · refine ⟨_, rfl, ?_⟩
        intro y hy
        injection hy with hy
        rw [← hy]; exact hx
      · obtain ⟨c', e, hc'⟩ := save_ok h hx
        exact ⟨_, by rw [e]; rfl, hc'⟩
    · exact ⟨_, rfl, hc⟩
  · exact ⟨_, rfl, hc⟩

theorem collect_ok {W : Nat} {p : PD F} (h : PRep W p) {c : Coll F} (hc : COk W p c) {x : SInfo F}
    (hx : SOk W p x) : Safe (collect p c x) (COk W p) := by
  obtain ⟨cs, es, hcs⟩ := save_ok h hx
  rw [collect]
  split
  · exact Or.inl ⟨cs, es, hcs⟩
  · rename_i fund hf
    have hproc : Safe (processHarmonics p c fund x) fun r => COk W p r.2 := by
      rw [processHarmonics]
      split
      · exact Safe.ok hc
      · obtain ⟨q, e⟩ := periodOf_ok h hx
        rw [e]
        simp only [bind, Except.bind]
        refine (toI32_safe _).bind fun m _ => ?_
        obtain ⟨r, er, hr⟩ := trySub_ok h hc (fund := fund) hx (u64 (min p.range m)) (div q (ofInt m))
        exact Or.inl ⟨r, er, hr⟩
    refine hproc.bind fun r hr => ?_
    obtain ⟨done, c'⟩ := r
    simp only []
    split
    · exact Safe.ok hr
    · split
      · exact Or.inl ⟨cs, es, hcs⟩
      · exact Safe.ok hr

theorem innerLoop_ok {W : Nat} {p : PD F} (h : PRep W p) (i : Nat) (first : ZInfo F)
    (hfirst : p.zc.edge i = .ok first) (k j : Nat) (c : Coll F) (hc : COk W p c) (hij : i < j)
    (hk : j + k ≤ p.zc.numEdges) :
    Safe (innerLoop p i first k j c) fun r => COk W p r.2 := by
  induction k generalizing j c with
  | zero => exact Safe.ok hc
  | succ k ih =>
    obtain ⟨a, b, ea, eb, -, -, ⟨per, ep, hp2⟩, -⟩ := edges_pair h.bits.ok h.inv hij (by omega)
    rw [hfirst] at ea
    injection ea with ea
    subst ea
    rw [innerLoop, eb]
    simp only [bind, Except.bind]
    split
    · rw [ep]
      simp only []
      split
      · exact Safe.ok hc
      · rename_i hmid
        rw [h.mid] at hmid
        split
        · obtain ⟨cnt, p', e, hp', hcnt⟩ := acPeriod_ok h.bits p.minPeriod per c.fundamental.isNone (by omega) (by omega)
          rw [e]
          simp only []
          cases cnt with
          | none => exact Safe.ok hc
          | some n =>
            simp only []
            refine (collect_ok h hc ?_).bind fun c' hc' => ?_
            · exact ⟨hij, by show j < _; omega, n, hcnt n rfl, rfl⟩
            · split
              · exact Safe.ok hc'
              · exact ih (j + 1) c' hc' (by omega) (by omega)
        · exact ih (j + 1) c hc (by omega) (by omega)
    · exact ih (j + 1) c hc (by omega) (by omega)

theorem outerLoop_ok {W : Nat} {p : PD F} (h : PRep W p) (k i : Nat) (c : Coll F) (hc : COk W p c)
    (hk : i + k < p.zc.numEdges) : Safe (outerLoop p k i c) (COk W p) := by
  induction k generalizing i c with
  | zero => exact Safe.ok hc
  | succ k ih =>
    have hi : i < p.zc.numEdges := by omega
    rw [outerLoop, ZC.edge_ok h.inv.toRep i hi]
    simp only [bind, Except.bind]
    split
    · refine (innerLoop_ok h i _ (ZC.edge_ok h.inv.toRep i hi) _ (i + 1) c hc (by omega) (by omega)).bind fun r hr => ?_
      obtain ⟨stop, c'⟩ := r
      simp only []
      split
      · exact Safe.ok hr
      · exact ih (i + 1) c' hr (by omega)
    · exact ih (i + 1) c hc (by omega)

/-- What the reported periodicity can be. -/
def FOk (W : Nat) (p : PD F) (x : F) : Prop :=
  x = lit (-1) ∨ x = lit 0 ∨ ∃ c, c ≤ cmpLen W ∧ x = periodicityOf p c

theorem autocorrelate_ok {W : Nat} {p : PD F} (h : PRep W p) (hn : 2 ≤ p.zc.numEdges) :
    Safe p.autocorrelate fun p' => p' = { p with fundamental := p'.fundamental } ∧ FOk W p p'.fundamental.periodicity ∧
      (p'.fundamental.periodicity = lit (-1) ∨ ¬ (p.halfEmpty || decide (p.numPulses < 2)) = true) := by
  rw [autocorrelate, if_neg (by omega)]
  split
  · exact Safe.ok ⟨rfl, Or.inl rfl, Or.inl rfl⟩
  · rename_i hne
    refine (outerLoop_ok h (p.zc.numEdges - 1) 0 _ (by intro x hx; cases hx) (by omega)).bind fun c hc => ?_
    cases hf : c.fundamental with
    | none => exact Safe.ok ⟨rfl, Or.inr (Or.inl rfl), Or.inr hne⟩
    | some x =>
      have hx := hc x hf
      obtain ⟨q, e⟩ := periodOf_ok h hx
      simp only [e, bind, Except.bind]
      exact Safe.ok ⟨rfl, Or.inr (Or.inr hx.2.2), Or.inr hne⟩

/-! ### the bitstream -/

/-- What `set_bitstream` writes for one edge, as a predicate on bit positions: nothing if the pulse is too
low; the frames of the pulse; or, if the pulse ended before frame 0, *every* bit. -/
def edgeBits (thr : F) (e : ZInfo F) (k : Nat) : Bool :=
  le thr e.peak && (decide (e.trailing < 0) || (decide (e.leading ≤ k) && decide ((k : Int) < e.trailing)))

theorem setBitsLoop_ok {W : Nat} {zc : ZC F} (h : Inv W zc) (hr : zc.ready = true) (hW : WOk W) (thr : F)
    (k i le_ tr np : Nat) (bits : Bitset 64) (hb : bits.size = W) (f : Nat → Bool) (hf : Bits bits f)
    (hk : i + k ≤ zc.numEdges) :
    ∃ le' tr' np' bits', setBitsLoop zc thr k i le_ tr np bits = .ok (le', tr', np', bits') ∧ bits'.size = W ∧
      ∃ g, Bits bits' g ∧ ∀ b, b < W → (g b = true ↔ f b = true ∨ ∃ j e, i ≤ j ∧ j < i + k ∧ zc.edge j = .ok e ∧ edgeBits thr e b = true) := by
  induction k generalizing i le_ tr np bits f with
  | zero =>
    refine ⟨_, _, _, _, rfl, hb, f, hf, fun b _ => ?_⟩
    constructor
    · exact Or.inl
    · rintro (h | ⟨j, e, h1, h2, -⟩)
      · exact h
      · omega
  | succ k ih =>
    have hi : i < zc.numEdges := by omega
    have hlt := hW.lt
    have hfr := h.frame
    have hlen := h.toRep.edges_length
    have he := ZC.edge_ok h.toRep i hi
    have hst : zc.state = false := (h.ready hr).1
    have hok := h.ok
    rw [hst] at hok
    have hm := ZC.closed_mem hok (List.getElem_mem (n := zc.numEdges - 1 - i) (by omega))
    generalize hee : zc.edges[zc.numEdges - 1 - i]'(by omega) = e at he hm
    rw [setBitsLoop, he]
    simp only [bind, Except.bind]
    by_cases hp : le thr e.peak = true
    · rw [if_pos hp, subInt_ok (by omega) (by omega)]
      simp only []
      -- the range written
      have hrange : ∃ b', bits.setRange (u64 (max e.leading 0)) (u64 (e.trailing - max e.leading 0)) true = .ok b' ∧
          b'.size = bits.size ∧ ∃ g, Bits b' g ∧ ∀ b, b < W → (g b = true ↔ f b = true ∨ edgeBits thr e b = true) := by
        have hu1 := u64_id (x := max e.leading 0) (by omega) (by omega)
        by_cases hneg : e.trailing < 0
        · have hu0 : u64 (max e.leading 0) = 0 := by omega
          have hu2 : (u64 (e.trailing - max e.leading 0) : Int) = 2 ^ 64 + e.trailing := by
            have : (2 ^ 64 + e.trailing) = (e.trailing - max e.leading 0) % 2 ^ 64 := by omega
            rw [u64, ← this]; omega
          obtain ⟨b', eb, hs, hbb⟩ := C13_set_range (W := 64) (by omega) bits f hf (u64 (max e.leading 0))
            (u64 (e.trailing - max e.leading 0)) true (by omega) (by omega)
          refine ⟨b', eb, hs, _, hbb, fun b hb => ?_⟩
          simp only [edgeBits, hp, hneg, decide_true, Bool.true_or, Bool.and_true]
          rw [if_pos (by omega)]
          simp
        · have hu2 := u64_id (x := e.trailing - max e.leading 0) (by omega) (by omega)
          obtain ⟨b', eb, hs, hbb⟩ := C13_set_range (W := 64) (by omega) bits f hf (u64 (max e.leading 0))
            (u64 (e.trailing - max e.leading 0)) true (by omega) (by omega)
          refine ⟨b', eb, hs, _, hbb, fun b hb => ?_⟩
          simp only [edgeBits, hp, hneg, decide_false, Bool.false_or, Bool.true_and, Bool.and_eq_true, decide_eq_true_eq]
          split
          · simp only [true_iff]; right; omega
          · constructor
            · exact Or.inl
            · rintro (h | h)
              · exact h
              · omega
      obtain ⟨b', eb, hs, g, hg, hgb⟩ := hrange
      rw [eb]
      simp only []
      obtain ⟨a1, a2, a3, a4, e2, hs2, g2, hg2, hgb2⟩ := ih (i + 1) _ _ (np + 1) b' (by rw [hs, hb]) g hg (by omega)
      refine ⟨a1, a2, a3, a4, e2, hs2, g2, hg2, fun b hbW => ?_⟩
      rw [hgb2 b hbW, hgb b hbW]
      constructor
      · rintro ((h | h) | ⟨j, x, h1, h2, h3, h4⟩)
        · exact Or.inl h
        · exact Or.inr ⟨i, e, by omega, by omega, he, h⟩
        · exact Or.inr ⟨j, x, by omega, by omega, h3, h4⟩
      · rintro (h | ⟨j, x, h1, h2, h3, h4⟩)
        · exact Or.inl (Or.inl h)
        · by_cases hj : j = i
          · subst hj
            rw [he] at h3
            injection h3 with h3
            subst h3
            exact Or.inl (Or.inr h4)
          · exact Or.inr ⟨j, x, by omega, by omega, h3, h4⟩
    · rw [if_neg hp]
      obtain ⟨a1, a2, a3, a4, e2, hs2, g2, hg2, hgb2⟩ := ih (i + 1) _ _ np bits hb f hf (by omega)
      refine ⟨a1, a2, a3, a4, e2, hs2, g2, hg2, fun b hbW => ?_⟩
      rw [hgb2 b hbW]
      constructor
      · rintro (h | ⟨j, x, h1, h2, h3, h4⟩)
        · exact Or.inl h
        · exact Or.inr ⟨j, x, by omega, by omega, h3, h4⟩
      · rintro (h | ⟨j, x, h1, h2, h3, h4⟩)
        · exact Or.inl h
        · by_cases hj : j = i
          · subst hj
            rw [he] at h3
            injection h3 with h3
            subst h3
            simp [edgeBits, hp] at h4
          · exact Or.inr ⟨j, x, by omega, by omega, h3, h4⟩

theorem setBitstream_ok {W : Nat} {p : PD F} (h : PRep W p) (hr : p.zc.ready = true) :
    ∃ p', p.setBitstream = .ok p' ∧ PRep W p' ∧
      p' = { p with numPulses := p'.numPulses, bits := p'.bits, halfEmpty := p'.halfEmpty } ∧
      ∃ g, Bits p'.bits g ∧ ∀ b, b < W → (g b = true ↔ ∃ j e, j < p.zc.numEdges ∧ p.zc.edge j = .ok e ∧ edgeBits p.threshold e b = true) := by
  obtain ⟨hcs, hcb⟩ := C13_clear (by omega) p.bits
  obtain ⟨a1, a2, a3, a4, e, hs, g, hg, hgb⟩ := setBitsLoop_ok h.inv hr h.bits.ok p.threshold p.zc.numEdges 0
    p.zc.window 0 0 p.bits.clear (by rw [hcs, h.bits.size]) _ hcb (by omega)
  refine ⟨{ p with numPulses := a3, bits := a4, halfEmpty := decide (a1 > p.midPoint) || decide (a2 < p.midPoint) },
    by rw [setBitstream, e, ok_bind]; rfl, ⟨⟨hs, h.bits.ok⟩, h.mid, h.inv⟩, rfl, g, hg, fun b hb => ?_⟩
  rw [hgb b hb]
  constructor
  · rintro (h | ⟨j, x, h1, h2, h3⟩)
    · cases h
    · exact ⟨j, x, by omega, h3⟩
  · rintro ⟨j, x, h1, h3⟩
    exact Or.inr ⟨j, x, by omega, by omega, h3⟩

/-! ### a whole call -/

/-- The invariant of the detector between calls. -/
structure PInv (W : Nat) (p : PD F) : Prop extends PRep W p where
  weight : p.weight = div (lit 2) (ofInt W)
  fund : FOk W p p.fundamental.periodicity

theorem FOk.congr {W : Nat} {p q : PD F} {x : F} (h : FOk W p x) (e : p.weight = q.weight) : FOk W q x := by
  rcases h with h | h | ⟨c, hc, h⟩
  · exact Or.inl h
  · exact Or.inr (Or.inl h)
  · exact Or.inr (Or.inr ⟨c, hc, by rw [h, periodicityOf, periodicityOf, e]⟩)

theorem step_ok {W : Nat} {p : PD F} (h : PInv W p) (s : F) :
    Safe (p.step s) fun r => PInv W r.1 ∧ r.2 = r.1.zc.ready ∧ p.zc.step s = .ok (r.1.zc, r.1.zc.state) ∧
      r.1.minPeriod = p.minPeriod ∧
      (r.2 = true → ∃ g, Bits r.1.bits g ∧ ∀ b, b < W → (g b = true ↔ ∃ j e, j < r.1.zc.numEdges ∧
        r.1.zc.edge j = .ok e ∧ edgeBits r.1.threshold e b = true)) := by
  obtain ⟨z', ez, iz, -⟩ := ZC.step_ok h.bits.ok h.inv s
  rw [step, ez]
  simp only [bind, Except.bind]
  -- the state before the analysis
  generalize hp1 : (if (!z'.state && p.zc.state != z'.state) = true then
      { p with zc := z', edgeMark := p.edgeMark + 1, predictedPeriod := lit (-1) } else { p with zc := z' } : PD F) = p1
  have h1 : p1.zc = z' ∧ p1.bits = p.bits ∧ p1.midPoint = p.midPoint ∧ p1.weight = p.weight ∧
      p1.fundamental = p.fundamental ∧ p1.minPeriod = p.minPeriod := by
    rw [← hp1]; split <;> exact ⟨rfl, rfl, rfl, rfl, rfl, rfl⟩
  generalize hp2 : (if p1.zc.isReset = true then { p1 with fundamental := PInfo.default } else p1 : PD F) = p2
  have h2 : PInv W p2 ∧ p2.zc = z' ∧ p2.minPeriod = p.minPeriod := by
    obtain ⟨a1, a2, a3, a4, a5, a6⟩ := h1
    rw [← hp2]
    split
    · exact ⟨⟨⟨by show BitsOk W p1.bits; rw [a2]; exact h.bits, by show p1.midPoint = _; rw [a3]; exact h.mid,
        by show Inv W p1.zc; rw [a1]; exact iz⟩, by show p1.weight = _; rw [a4]; exact h.weight, Or.inr (Or.inl rfl)⟩, a1, a6⟩
    · exact ⟨⟨⟨by rw [a2]; exact h.bits, by rw [a3]; exact h.mid, by rw [a1]; exact iz⟩, by rw [a4]; exact h.weight,
        by rw [a5]; exact h.fund.congr a4.symm⟩, a1, a6⟩
  obtain ⟨i2, hz2, hm2⟩ := h2
  by_cases hr : p2.zc.ready = true
  · rw [if_pos hr]
    obtain ⟨p3, e3, i3, hp3, g, hg, hgb⟩ := setBitstream_ok i2.toPRep hr
    rw [e3]
    simp only []
    have hz3 : p3.zc = p2.zc := by rw [hp3]
    have hw3 : p3.weight = p2.weight := by rw [hp3]
    have hm3 : p3.minPeriod = p2.minPeriod := by rw [hp3]
    refine (autocorrelate_ok i3 (by rw [hz3]; exact (i2.inv.ready hr).2.1)).bind fun p4 h4 => ?_
    obtain ⟨h4, hf4, -⟩ := h4
    have hz4 : p4.zc = p3.zc := by rw [h4]
    have hb4 : p4.bits = p3.bits := by rw [h4]
    have hm4 : p4.midPoint = p3.midPoint := by rw [h4]
    have hw4 : p4.weight = p3.weight := by rw [h4]
    have hn4 : p4.minPeriod = p3.minPeriod := by rw [h4]
    refine Safe.ok ⟨⟨⟨by rw [hb4]; exact i3.bits, by rw [hm4]; exact i3.mid, by rw [hz4]; exact i3.inv⟩,
      by rw [hw4, hw3]; exact i2.weight, hf4.congr hw4.symm⟩, ?_, ?_, ?_, ?_⟩
    · show true = _; rw [hz4, hz3, hr]
    · rw [hz4, hz3, hz2]
    · rw [hn4, hm3, hm2]
    · intro _
      refine ⟨g, by rw [hb4]; exact hg, fun b hb => ?_⟩
      rw [hgb b hb]
      simp only [threshold, hz4, hz3]
  · rw [if_neg hr]
    have hr' : p2.zc.ready = false := by simpa using hr
    exact Safe.ok (a := (p2, false)) ⟨i2, hr'.symm, by rw [hz2], hm2, fun h => Bool.noConfusion h⟩

end PD
end Verif
