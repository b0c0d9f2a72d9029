import Mathlib.Tactic.Linarith
import Verif.Proof.PeriodDetector
/-! What the search of `period_detector` returns. -/
namespace Verif
open FloatOps
variable {F : Type} [FloatOps F]
attribute [local irreducible] i32 u64

/-- Every normal result satisfies `P`. -/
def Post {α : Type} (m : C α) (P : α → Prop) : Prop := ∀ a, m = .ok a → P a

theorem Post.ok {α : Type} {a : α} {P : α → Prop} (h : P a) : Post (.ok a : C α) P := by
  intro b e; injection e with e; rw [← e]; exact h

theorem Post.err {α : Type} {e : Bad} {P : α → Prop} : Post (.error e : C α) P := by
  intro b e; cases e

theorem Post.bind {α β : Type} {m : C α} {f : α → C β} {P : α → Prop} {Q : β → Prop} (h : Post m P)
    (hf : ∀ a, m = .ok a → P a → Post (f a) Q) : Post (m >>= f) Q := by
  match m, h, hf with
  | .error e, _, _ => exact Post.err
  | .ok a, h, hf => exact hf a rfl (h a rfl)

theorem Post.any {α : Type} (m : C α) : Post m fun _ => True := fun _ _ => trivial

theorem Post.mono {α : Type} {m : C α} {P Q : α → Prop} (h : Post m P) (hi : ∀ a, P a → Q a) : Post m Q :=
  fun a e => hi a (h a e)

namespace PD

theorem searchUp_post (bits : Bitset 64) (mid : Nat) (k p count period start c0 : Nat) (hk : k = mid - p)
    (hp : p = period + 1) (hs : start ≤ period) (hb : period = start ∨ period < mid) (hc : Acf.acf bits period = .ok count)
    (h0 : count ≤ c0)
    (hlow : start < period → ∀ c', Acf.acf bits (period - 1) = .ok c' → count ≤ c') :
    Post (searchUp bits k p count period) fun r =>
      Acf.acf bits r.2 = .ok r.1 ∧ r.1 ≤ c0 ∧ start ≤ r.2 ∧ (r.2 = start ∨ r.2 < mid) ∧
      (r.2 + 1 < mid → ∀ c', Acf.acf bits (r.2 + 1) = .ok c' → r.1 ≤ c') ∧
      (start < r.2 → ∀ c', Acf.acf bits (r.2 - 1) = .ok c' → r.1 ≤ c') := by
  induction k generalizing p count period with
  | zero =>
    exact Post.ok ⟨hc, h0, hs, hb, fun h => by omega, hlow⟩
  | succ k ih =>
    rw [searchUp]
    refine (Post.any _).bind fun c ec _ => ?_
    split
    · rename_i hgt
      refine Post.ok ⟨hc, h0, hs, hb, fun _ c' e' => ?_, hlow⟩
      rw [← hp, ec] at e'
      injection e' with e'
      omega
    · rename_i hle
      refine ih (p + 1) c p (by omega) rfl (by omega) (by right; omega) ec (by omega) fun _ c' e' => ?_
      rw [hp, Nat.add_sub_cancel, hc] at e'
      injection e' with e'
      omega

theorem searchDown_post (bits : Bitset 64) (minP : Nat) (k p count period start c1 q1 : Nat) (hk : k = p - minP)
    (h : (p + 1 = start ∧ count = c1 ∧ period = q1) ∨
      (p + 1 = period ∧ minP < period ∧ period < start ∧ Acf.acf bits period = .ok count ∧ count ≤ c1 ∧
        ((period + 1 = start) ∨ ∀ c', Acf.acf bits (period + 1) = .ok c' → count ≤ c'))) :
    Post (searchDown bits k p count period) fun r =>
      (r = (c1, q1) ∧ (minP + 1 < start → ∀ c', Acf.acf bits (start - 1) = .ok c' → c1 ≤ c')) ∨
      (minP < r.2 ∧ r.2 < start ∧ Acf.acf bits r.2 = .ok r.1 ∧ r.1 ≤ c1 ∧
        (r.2 + 1 = start ∨ ∀ c', Acf.acf bits (r.2 + 1) = .ok c' → r.1 ≤ c') ∧
        (minP + 1 < r.2 → ∀ c', Acf.acf bits (r.2 - 1) = .ok c' → r.1 ≤ c')) := by
  induction k generalizing p count period with
  | zero =>
    apply Post.ok
    rcases h with ⟨h1, h2, h3⟩ | ⟨h1, h2, h3, h4, h5, h6⟩
    · left
      exact ⟨by rw [h2, h3], fun h => by omega⟩
    · right
      exact ⟨h2, h3, h4, h5, h6, fun h => by simp only at h; omega⟩
  | succ k ih =>
    rw [searchDown]
    refine (Post.any _).bind fun c ec _ => ?_
    split
    · rename_i hgt
      apply Post.ok
      rcases h with ⟨h1, h2, h3⟩ | ⟨h1, h2, h3, h4, h5, h6⟩
      · left
        refine ⟨by rw [h2, h3], fun _ c' e' => ?_⟩
        rw [show start - 1 = p by omega, ec] at e'
        injection e' with e'
        omega
      · right
        refine ⟨h2, h3, h4, h5, h6, fun _ c' e' => ?_⟩
        simp only at e' ⊢
        rw [show period - 1 = p by omega, ec] at e'
        injection e' with e'
        omega
    · rename_i hle
      refine ih (p - 1) c p (by omega) (Or.inr ⟨by omega, by omega, ?_, ec, ?_, ?_⟩)
      · rcases h with h | h <;> omega
      · rcases h with h | h <;> omega
      · rcases h with ⟨h1, h2, h3⟩ | ⟨h1, h2, h3, h4, h5, h6⟩
        · exact Or.inl h1
        · right
          intro c' e'
          rw [h1, h4] at e'
          injection e' with e'
          omega

/-- Specification of the lag chosen for a distance of `start` frames between two pulses. -/
structure LagOf (bits : Bitset 64) (minP start lag count : Nat) : Prop where
  /-- the count is the autocorrelation at the lag -/
  value : Acf.acf bits lag = .ok count
  /-- no worse than at the distance itself -/
  best : ∀ c', Acf.acf bits start = .ok c' → count ≤ c'
  /-- refined only if the distance is short -/
  coarse : 32 ≤ start → lag = start
  /-- where the refinement stays -/
  range : lag = start ∨ (minP < lag ∧ lag < start) ∨ (start < lag ∧ lag < Acf.midArray bits * 64)
  /-- a local minimum -/
  up : start < 32 → lag + 1 < Acf.midArray bits * 64 → ∀ c', Acf.acf bits (lag + 1) = .ok c' → count ≤ c'
  down : start < 32 → minP + 1 < lag → ∀ c', Acf.acf bits (lag - 1) = .ok c' → count ≤ c'

theorem acPeriod_post (bits : Bitset 64) (minP start : Nat) (first : Bool) (h0 : 1 ≤ start) (h1 : start < 2 ^ 63) :
    Post (acPeriod bits minP start first) fun r =>
      match r.1 with
      | none => r.2 = start ∧ first = true ∧ Acf.acf bits start = .ok 0 ∧ Acf.acf bits (start / 2) = .ok 0
      | some c => LagOf bits minP start r.2 c := by
  rw [acPeriod]
  refine (Post.any _).bind fun c ec _ => ?_
  simp only []
  split
  · rename_i hc
    simp only [Bool.and_eq_true, beq_iff_eq] at hc
    refine (Post.any _).bind fun c2 ec2 _ => ?_
    split
    · rename_i hc2
      apply Post.ok
      subst hc2
      rw [hc.2] at ec
      exact ⟨rfl, hc.1, ec, ec2⟩
    · apply Post.ok
      rw [hc.2] at ec ⊢
      exact ⟨ec, fun _ _ => Nat.zero_le _, fun _ => rfl, Or.inl rfl, fun _ _ _ _ => Nat.zero_le _, fun _ _ _ _ => Nat.zero_le _⟩
  · split
    · rename_i hlt
      refine (searchUp_post bits (Acf.midArray bits * 64) _ (start + 1) c start start c (by omega) rfl (le_refl _) (Or.inl rfl) ec
        (le_refl _) (fun h => by omega)).bind fun r1 _ hr1 => ?_
      obtain ⟨c1, q1⟩ := r1
      obtain ⟨a1, a2, a3, a4, a5, a6⟩ := hr1
      simp only at a1 a2 a3 a4 a5 a6 ⊢
      have hdown : (start + (2 ^ 64 - 1)) % 2 ^ 64 = start - 1 := by omega
      rw [hdown]
      refine (searchDown_post bits minP _ (start - 1) c1 q1 start c1 q1 rfl (Or.inl ⟨by omega, rfl, rfl⟩)).bind fun r2 _ hr2 => ?_
      obtain ⟨c2, q2⟩ := r2
      simp only at hr2 ⊢
      apply Post.ok
      have hbest : ∀ {x}, x ≤ c → ∀ c', Acf.acf bits start = .ok c' → x ≤ c' := by
        intro x hx c' e'
        rw [ec] at e'
        injection e' with e'
        omega
      rcases hr2 with ⟨e, hd⟩ | ⟨b1, b2, b3, b4, b5, b6⟩
      · injection e with e1 e2
        subst e1 e2
        refine ⟨a1, hbest a2, fun h => by omega, ?_, fun _ => a5, fun _ hmin c' e' => ?_⟩
        · rcases Nat.lt_or_ge start q2 with h | h
          · exact Or.inr (Or.inr ⟨h, by rcases a4 with a4 | a4 <;> omega⟩)
          · exact Or.inl (by omega)
        · rcases Nat.lt_or_ge start q2 with h | h
          · exact a6 h c' e'
          · have : q2 = start := by omega
            rw [this] at hmin e'
            exact hd hmin c' e'
      · refine ⟨b3, hbest (le_trans b4 a2), fun h => by omega, Or.inr (Or.inl ⟨b1, b2⟩), fun _ _ c' e' => ?_, fun _ => b6⟩
        simp only at e' ⊢
        rcases b5 with b5 | b5
        · rw [b5] at e'
          exact hbest (le_trans b4 a2) c' e'
        · exact b5 c' e'
    · rename_i hge
      apply Post.ok
      refine ⟨ec, fun c' e' => ?_, fun _ => rfl, Or.inl rfl, fun h => absurd h hge, fun h => absurd h hge⟩
      rw [ec] at e'
      injection e' with e'
      omega

/-! ### the candidates -/

/-- A candidate of the search: two stored loud pulses at a distance between the minimum period and half the window;
`H` constrains the harmonic. -/
structure Cand (p : PD F) (H : Nat → Prop) (x : SInfo F) : Prop where
  lt : x.i1 < x.i2
  bound : x.i2 < p.zc.numEdges
  harm : H x.harmonic
  ex : ∃ e1 e2 n lag count, p.zc.edge x.i1 = .ok e1 ∧ p.zc.edge x.i2 = .ok e2 ∧ le p.threshold e1.peak = true ∧
    le p.threshold e2.peak = true ∧ e1.period e2 = .ok n ∧ p.minPeriod ≤ n ∧ n ≤ p.midPoint ∧
    LagOf p.bits p.minPeriod n lag count ∧ x.periodicity = periodicityOf p count

theorem Cand.harmonic {p : PD F} {H H' : Nat → Prop} {x : SInfo F} (h : Cand p H x) (n : Nat) (hn : H' n) :
    Cand p H' { x with harmonic := n } := ⟨h.lt, h.bound, hn, h.ex⟩

/-- Every saved candidate is one. -/
def CandC (p : PD F) (H : Nat → Prop) (c : Coll F) : Prop := ∀ x, c.fundamental = some x → Cand p H x

/-- The conditions on the harmonics that the code ensures. -/
def HOk (p : PD F) (H : Nat → Prop) : Prop :=
  H 1 ∧ ∀ (a : F) (m : Int), toI32 (FloatOps.max (lit 1) a) = .ok m → H (u64 (min p.range m))

theorem save_post {p : PD F} {H : Nat → Prop} (hH : HOk p H) {x : SInfo F} (hx : Cand p (fun _ => True) x) :
    Post (save p.zc x) (CandC p H) := by
  rw [save]
  refine (Post.any _).bind fun fp _ _ => Post.ok ?_
  intro y hy
  injection hy with hy
  rw [← hy]
  exact hx.harmonic 1 hH.1

theorem trySub_post {p : PD F} {H : Nat → Prop} (hH : HOk p H) {c : Coll F} (hc : CandC p H c) {fund x : SInfo F}
    (hx : Cand p (fun _ => True) x) (hm : Nat) (hh : H hm) (xp : F) :
    Post (trySubHarmonic p c fund hm x xp) fun r => CandC p H r.2 := by
  rw [trySubHarmonic]
  split
  · split
    · simp only []
      split
      · apply Post.ok
        intro y hy
        injection hy with hy
        rw [← hy]
        exact ⟨hx.lt, hx.bound, hh, hx.ex⟩
      · exact (save_post hH hx).bind fun c' _ h => Post.ok h
    · exact Post.ok hc
  · exact Post.ok hc

theorem collect_post {p : PD F} {H : Nat → Prop} (hH : HOk p H) {c : Coll F} (hc : CandC p H c) {x : SInfo F}
    (hx : Cand p (fun _ => True) x) : Post (collect p c x) (CandC p H) := by
  rw [collect]
  split
  · exact save_post hH hx
  · rename_i fund hf
    have hp : Post (processHarmonics p c fund x) fun r => CandC p H r.2 := by
      rw [processHarmonics]
      split
      · exact Post.ok hc
      · refine (Post.any _).bind fun xp _ _ => (Post.any _).bind fun m em _ => ?_
        exact trySub_post hH hc hx _ (hH.2 _ m em) _
    refine hp.bind fun r _ hr => ?_
    obtain ⟨done, c'⟩ := r
    simp only at hr ⊢
    split
    · exact Post.ok hr
    · split
      · exact save_post hH hx
      · exact Post.ok hr

theorem innerLoop_post {p : PD F} {H : Nat → Prop} (hH : HOk p H) (hmid : p.midPoint < 2 ^ 62) (i : Nat) (first : ZInfo F)
    (hfirst : p.zc.edge i = .ok first) (hloud : le p.threshold first.peak = true)
    (hpos : ∀ j e n, i < j → j < p.zc.numEdges → p.zc.edge j = .ok e → first.period e = .ok n → 1 ≤ n)
    (k j : Nat) (c : Coll F) (hc : CandC p H c) (hij : i < j) (hk : j + k ≤ p.zc.numEdges) :
    Post (innerLoop p i first k j c) fun r => CandC p H r.2 := by
  induction k generalizing j c with
  | zero => exact Post.ok hc
  | succ k ih =>
    rw [innerLoop]
    refine (Post.any _).bind fun next en _ => ?_
    split
    · rename_i hl2
      refine (Post.any _).bind fun n hn _ => ?_
      split
      · exact Post.ok hc
      · rename_i hm
        split
        · rename_i hmin
          refine (acPeriod_post p.bits p.minPeriod n c.fundamental.isNone (hpos j next n hij (by omega) en hn) (by omega)).bind fun r _ hr => ?_
          obtain ⟨cnt, lag⟩ := r
          simp only at hr ⊢
          cases cnt with
          | none => exact Post.ok hc
          | some cnt =>
            simp only at hr ⊢
            have hx : Cand p (fun _ => True) { i1 := i, i2 := j, period := i32 lag, periodicity := periodicityOf p cnt, harmonic := 0 } :=
              ⟨hij, by show j < _; omega, trivial, first, next, n, lag, cnt, hfirst, en, hloud, hl2, hn, hmin, not_lt.1 hm, hr, rfl⟩
            refine (collect_post hH hc hx).bind fun c' _ hc' => ?_
            split
            · exact Post.ok hc'
            · exact ih (j + 1) c' hc' (by omega) (by omega)
        · exact ih (j + 1) c hc (by omega) (by omega)
    · exact ih (j + 1) c hc (by omega) (by omega)

theorem outerLoop_post {p : PD F} {H : Nat → Prop} (hH : HOk p H) (hmid : p.midPoint < 2 ^ 62)
    (hpos : ∀ i j a b n, i < j → j < p.zc.numEdges → p.zc.edge i = .ok a → p.zc.edge j = .ok b → a.period b = .ok n → 1 ≤ n)
    (k i : Nat) (c : Coll F) (hc : CandC p H c) (hk : i + k < p.zc.numEdges) : Post (outerLoop p k i c) (CandC p H) := by
  induction k generalizing i c with
  | zero => exact Post.ok hc
  | succ k ih =>
    rw [outerLoop]
    refine (Post.any _).bind fun first ef _ => ?_
    split
    · rename_i hl
      refine (innerLoop_post hH hmid i first ef hl (fun j e n h1 h2 h3 h4 => hpos i j first e n h1 h2 ef h3 h4) _ (i + 1) c hc
        (by omega) (by omega)).bind fun r _ hr => ?_
      obtain ⟨stop, c'⟩ := r
      simp only at hr ⊢
      split
      · exact Post.ok hr
      · exact ih (i + 1) c' hr (by omega)
    · exact ih (i + 1) c hc (by omega)

/-- What `autocorrelate()` reports. -/
theorem autocorrelate_post {W : Nat} {p : PD F} (h : PRep W p) {H : Nat → Prop} (hH : HOk p H) :
    Post p.autocorrelate fun p' => p' = { p with fundamental := p'.fundamental } ∧
      ((p.halfEmpty = true ∨ p.numPulses < 2) ∧ p'.fundamental = { p.fundamental with periodicity := lit (-1) } ∨
       ¬ (p.halfEmpty = true ∨ p.numPulses < 2) ∧ (p'.fundamental = PInfo.default ∨
        ∃ x per, Cand p H x ∧ periodOf p.zc x = .ok per ∧
          p'.fundamental = { period := div per (ofInt x.harmonic), periodicity := x.periodicity })) := by
  rw [autocorrelate]
  split
  · exact Post.err
  · split
    · rename_i hc
      exact Post.ok ⟨rfl, Or.inl ⟨by simpa using hc, rfl⟩⟩
    · rename_i hc
      have hlt := h.bits.ok.lt
      have hm := h.mid
      refine (outerLoop_post hH (by omega) ?_ _ 0 _ (fun x hx => by cases hx) (by omega)).bind fun c _ hcc => ?_
      · intro i j a b n h1 h2 h3 h4 h5
        obtain ⟨a', b', ea, eb, -, -, ⟨q, e, hq⟩, -⟩ := edges_pair h.bits.ok h.inv h1 h2
        rw [h3] at ea; rw [h4] at eb
        injection ea with ea; injection eb with eb
        subst ea eb
        rw [h5] at e
        injection e with e
        omega
      · cases hf : c.fundamental with
        | none =>
          exact Post.ok ⟨rfl, Or.inr ⟨by simpa using hc, Or.inl rfl⟩⟩
        | some x =>
          refine (Post.any _).bind fun per ep _ => Post.ok ⟨rfl, Or.inr ⟨by simpa using hc, Or.inr ⟨x, per, hcc x hf, ep, rfl⟩⟩⟩

/-! ### the flag for an empty half -/

theorem setBitsLoop_post (zc : ZC F) (thr : F) (k i le_ tr np : Nat) (bits : Bitset 64) (hk : i + k ≤ zc.numEdges) :
    Post (setBitsLoop zc thr k i le_ tr np bits) fun r =>
      (∀ m, m < r.1 ↔ m < le_ ∧ ∀ j e, i ≤ j → j < i + k → zc.edge j = .ok e → le thr e.peak = true → m < u64 e.leading) ∧
      (∀ m, r.2.1 < m ↔ tr < m ∧ ∀ j e, i ≤ j → j < i + k → zc.edge j = .ok e → le thr e.peak = true → u64 e.trailing < m) ∧
      r.2.2.1 = np + ((List.range k).filter fun t => match zc.edge (i + t) with
        | .ok e => le thr e.peak | .error _ => false).length := by
  induction k generalizing i le_ tr np bits with
  | zero =>
    refine Post.ok ⟨fun m => ⟨fun h => ⟨h, fun j e h1 h2 => by omega⟩, fun h => h.1⟩,
      fun m => ⟨fun h => ⟨h, fun j e h1 h2 => by omega⟩, fun h => h.1⟩, by simp⟩
  | succ k ih =>
    rw [setBitsLoop]
    refine (Post.any _).bind fun info ei _ => ?_
    have hcount : ((List.range (k + 1)).filter fun t => match zc.edge (i + t) with
        | .ok e => le thr e.peak | .error _ => false).length = (if le thr info.peak = true then 1 else 0) +
        ((List.range k).filter fun t => match zc.edge (i + 1 + t) with
        | .ok e => le thr e.peak | .error _ => false).length := by
      rw [List.range_succ_eq_map, List.filter_cons, Nat.add_zero, ei, List.filter_map]
      have hfun : (List.range k).filter ((fun t => match zc.edge (i + t) with
          | .ok e => le thr e.peak | .error _ => false) ∘ Nat.succ) = (List.range k).filter (fun t => match zc.edge (i + 1 + t) with
          | .ok e => le thr e.peak | .error _ => false) := by
        apply List.filter_congr
        intro t _
        simp only [Function.comp, Nat.succ_eq_add_one]
        rw [show i + (t + 1) = i + 1 + t by omega]
      simp only []
      split
      · rw [List.length_cons, List.length_map, ← hfun]; omega
      · rw [List.length_map, ← hfun]; omega
    split
    · rename_i hl
      simp only []
      refine (Post.any _).bind fun n _ _ => (Post.any _).bind fun bits' _ _ => ?_
      refine (ih (i + 1) _ _ (np + 1) bits' (by omega)).mono fun r hr => ?_
      obtain ⟨h1, h2, h3⟩ := hr
      refine ⟨fun m => ?_, fun m => ?_, ?_⟩
      · rw [h1 m]
        have hmin : m < (if u64 info.leading < le_ then u64 info.leading else le_) ↔ m < le_ ∧ m < u64 info.leading := by
          split <;> omega
        rw [hmin]
        constructor
        · rintro ⟨⟨g1, g2⟩, g3⟩
          refine ⟨g1, fun j e j1 j2 ej hle => ?_⟩
          by_cases hji : j = i
          · subst hji; rw [ei] at ej; injection ej with ej; rw [← ej]; exact g2
          · exact g3 j e (by omega) (by omega) ej hle
        · rintro ⟨g1, g2⟩
          exact ⟨⟨g1, g2 i info (le_refl _) (by omega) ei hl⟩, fun j e j1 j2 ej hle => g2 j e (by omega) (by omega) ej hle⟩
      · rw [h2 m]
        have hmin : (if u64 info.trailing > tr then u64 info.trailing else tr) < m ↔ tr < m ∧ u64 info.trailing < m := by
          split <;> omega
        rw [hmin]
        constructor
        · rintro ⟨⟨g1, g2⟩, g3⟩
          refine ⟨g1, fun j e j1 j2 ej hle => ?_⟩
          by_cases hji : j = i
          · subst hji; rw [ei] at ej; injection ej with ej; rw [← ej]; exact g2
          · exact g3 j e (by omega) (by omega) ej hle
        · rintro ⟨g1, g2⟩
          exact ⟨⟨g1, g2 i info (le_refl _) (by omega) ei hl⟩, fun j e j1 j2 ej hle => g2 j e (by omega) (by omega) ej hle⟩
      · rw [h3, hcount, if_pos hl]; omega
    · rename_i hl
      refine (ih (i + 1) _ _ np bits (by omega)).mono fun r hr => ?_
      obtain ⟨h1, h2, h3⟩ := hr
      refine ⟨fun m => ?_, fun m => ?_, ?_⟩
      · rw [h1 m]
        constructor
        · rintro ⟨g1, g3⟩
          refine ⟨g1, fun j e j1 j2 ej hle => ?_⟩
          by_cases hji : j = i
          · subst hji; rw [ei] at ej; injection ej with ej; rw [← ej] at hle; exact absurd hle hl
          · exact g3 j e (by omega) (by omega) ej hle
        · rintro ⟨g1, g2⟩
          exact ⟨g1, fun j e j1 j2 ej hle => g2 j e (by omega) (by omega) ej hle⟩
      · rw [h2 m]
        constructor
        · rintro ⟨g1, g3⟩
          refine ⟨g1, fun j e j1 j2 ej hle => ?_⟩
          by_cases hji : j = i
          · subst hji; rw [ei] at ej; injection ej with ej; rw [← ej] at hle; exact absurd hle hl
          · exact g3 j e (by omega) (by omega) ej hle
        · rintro ⟨g1, g2⟩
          exact ⟨g1, fun j e j1 j2 ej hle => g2 j e (by omega) (by omega) ej hle⟩
      · rw [h3, hcount, if_neg hl]; omega

/-- The number of stored pulses that reach the threshold. -/
def loudCount (p : PD F) : Nat :=
  ((List.range p.zc.numEdges).filter fun t => match p.zc.edge t with
    | .ok e => le p.threshold e.peak | .error _ => false).length

/-- A stored pulse that reaches the threshold. -/
def Loud (p : PD F) (j : Nat) (e : ZInfo F) : Prop :=
  j < p.zc.numEdges ∧ p.zc.edge j = .ok e ∧ le p.threshold e.peak = true

theorem setBitstream_post {p : PD F} (hm : p.midPoint < p.zc.window) (h0 : 0 < p.midPoint) :
    Post p.setBitstream fun p' =>
      p' = { p with numPulses := p'.numPulses, bits := p'.bits, halfEmpty := p'.halfEmpty } ∧
      p'.numPulses = loudCount p ∧
      (p'.halfEmpty = true ↔ (∀ j e, Loud p j e → p.midPoint < u64 e.leading) ∨
        (∀ j e, Loud p j e → u64 e.trailing < p.midPoint)) := by
  rw [setBitstream]
  refine (setBitsLoop_post p.zc p.threshold p.zc.numEdges 0 p.zc.window 0 0 p.bits.clear (by omega)).bind fun r _ hr => ?_
  obtain ⟨a, b, c, d⟩ := r
  obtain ⟨h1, h2, h3⟩ := hr
  simp only at h1 h2 h3 ⊢
  refine Post.ok ⟨rfl, ?_, ?_⟩
  · simp only [h3, Nat.zero_add, loudCount]
  · simp only [Bool.or_eq_true, decide_eq_true_eq, gt_iff_lt]
    rw [h1, h2]
    constructor
    · rintro (⟨-, h⟩ | ⟨-, h⟩)
      · exact Or.inl fun j e hl => h j e (Nat.zero_le _) (by have := hl.1; omega) hl.2.1 hl.2.2
      · exact Or.inr fun j e hl => h j e (Nat.zero_le _) (by have := hl.1; omega) hl.2.1 hl.2.2
    · rintro (h | h)
      · exact Or.inl ⟨hm, fun j e _ hj he hl => h j e ⟨by omega, he, hl⟩⟩
      · exact Or.inr ⟨h0, fun j e _ hj he hl => h j e ⟨by omega, he, hl⟩⟩

/-! ### a call -/

/-- What a call that completes a window reports. -/
def Report (p' : PD F) (H : Nat → Prop) : Prop :=
  let flagged := (∀ j e, Loud p' j e → p'.midPoint < u64 e.leading) ∨ (∀ j e, Loud p' j e → u64 e.trailing < p'.midPoint) ∨
    loudCount p' < 2
  flagged ∧ p'.fundamental.periodicity = lit (-1) ∨
  ¬ flagged ∧ (p'.fundamental = PInfo.default ∨
    ∃ x per, Cand p' H x ∧ periodOf p'.zc x = .ok per ∧
      p'.fundamental = { period := div per (ofInt x.harmonic), periodicity := x.periodicity })

theorem step_post {W : Nat} {p : PD F} (h : PInv W p) {H : Nat → Prop} (hH : HOk p H) (s : F) :
    Post (p.step s) fun r => r.1.range = p.range ∧ r.1.minPeriod = p.minPeriod ∧ r.1.midPoint = p.midPoint ∧
      r.1.periodDiffThreshold = p.periodDiffThreshold ∧ r.1.weight = p.weight ∧
      (r.2 = true → Report r.1 H) := by
  obtain ⟨z', ez, iz, -⟩ := ZC.step_ok h.bits.ok h.inv s
  rw [step, ez, ok_bind]
  simp only []
  generalize hp1 : (if (!z'.state && p.zc.state != z'.state) = true then
      { p with zc := z', edgeMark := p.edgeMark + 1, predictedPeriod := lit (-1) } else { p with zc := z' } : PD F) = p1
  have h1 : p1.zc = z' ∧ p1.bits = p.bits ∧ p1.midPoint = p.midPoint ∧ p1.weight = p.weight ∧
      p1.range = p.range ∧ p1.minPeriod = p.minPeriod ∧ p1.periodDiffThreshold = p.periodDiffThreshold := by
    rw [← hp1]; split <;> exact ⟨rfl, rfl, rfl, rfl, rfl, rfl, rfl⟩
  generalize hp2 : (if p1.zc.isReset = true then { p1 with fundamental := PInfo.default } else p1 : PD F) = p2
  have h2 : p2.zc = z' ∧ p2.bits = p.bits ∧ p2.midPoint = p.midPoint ∧ p2.weight = p.weight ∧
      p2.range = p.range ∧ p2.minPeriod = p.minPeriod ∧ p2.periodDiffThreshold = p.periodDiffThreshold := by
    rw [← hp2]; split <;> exact h1
  obtain ⟨a1, a2, a3, a4, a5, a6, a7⟩ := h2
  have hge := h.bits.ok.ge
  have hmid := h.mid
  have hwin := iz.window
  split
  · rename_i hr
    have hP2 : PRep W p2 := ⟨by rw [a2]; exact h.bits, by rw [a3]; exact h.mid, by rw [a1]; exact iz⟩
    refine (setBitstream_post (p := p2) (by rw [a3, a1]; omega) (by rw [a3]; omega)).bind fun p3 e3 hp3 => ?_
    obtain ⟨b0, b1, b2⟩ := hp3
    obtain ⟨p3', e3', hP3, -⟩ := setBitstream_ok hP2 hr
    rw [e3] at e3'
    injection e3' with e3'
    subst e3'
    have hrg3 : p3.range = p2.range := by rw [b0]
    have hH3 : HOk p3 H := by
      refine ⟨hH.1, fun a m em => ?_⟩
      rw [hrg3, a5]; exact hH.2 a m em
    refine (autocorrelate_post hP3 hH3).bind fun p4 _ hp4 => ?_
    obtain ⟨c0, c1⟩ := hp4
    have hz3 : p3.zc = p2.zc := by rw [b0]
    have hz4 : p4.zc = p3.zc := by rw [c0]
    have hm4 : p4.midPoint = p3.midPoint := by rw [c0]
    have hm3 : p3.midPoint = p2.midPoint := by rw [b0]
    have hb4 : p4.bits = p3.bits := by rw [c0]
    have hn4 : p4.minPeriod = p3.minPeriod := by rw [c0]
    have hn3 : p3.minPeriod = p2.minPeriod := by rw [b0]
    have hw4 : p4.weight = p3.weight := by rw [c0]
    have hw3 : p3.weight = p2.weight := by rw [b0]
    have hg4 : p4.range = p3.range := by rw [c0]
    have ht4 : p4.periodDiffThreshold = p3.periodDiffThreshold := by rw [c0]
    have ht3 : p3.periodDiffThreshold = p2.periodDiffThreshold := by rw [b0]
    refine Post.ok ⟨by rw [hg4, hrg3, a5], by rw [hn4, hn3, a6], by rw [hm4, hm3, a3], by rw [ht4, ht3, a7], by rw [hw4, hw3, a4], fun _ => ?_⟩
    have hloud : ∀ j e, Loud p4 j e ↔ Loud p2 j e := by
      intro j e
      rw [Loud, Loud, threshold, threshold, hz4, hz3]
    have hcnt : loudCount p4 = loudCount p2 := by
      rw [loudCount, loudCount, threshold, threshold, hz4, hz3]
    have hflag : (p3.halfEmpty = true ∨ p3.numPulses < 2) ↔
        ((∀ j e, Loud p4 j e → p4.midPoint < u64 e.leading) ∨ (∀ j e, Loud p4 j e → u64 e.trailing < p4.midPoint) ∨
        loudCount p4 < 2) := by
      simp only [hloud, hcnt, hm4, hm3]
      rw [b2, b1, or_assoc]
    have hcand : ∀ x, Cand p3 H x → Cand p4 H x := by
      rintro x ⟨d1, d2, d3, e1, e2, n, lag, count, k1, k2, k3, k4, k5, k6, k7, k8, k9⟩
      have hth : p4.threshold = p3.threshold := by rw [threshold, threshold, hz4]
      refine ⟨d1, by rw [hz4]; exact d2, d3, e1, e2, n, lag, count, by rw [hz4]; exact k1, by rw [hz4]; exact k2,
        by rw [hth]; exact k3, by rw [hth]; exact k4, k5, by rw [hn4]; exact k6, by rw [hm4]; exact k7,
        by rw [hb4, hn4]; exact k8, ?_⟩
      rw [k9, periodicityOf, periodicityOf, hw4]
    rw [Report]
    rcases c1 with ⟨c1, c2⟩ | ⟨c1, c2⟩
    · exact Or.inl ⟨hflag.1 c1, by rw [c2]⟩
    · refine Or.inr ⟨fun hc => c1 (hflag.2 hc), ?_⟩
      rcases c2 with c2 | ⟨x, per, c2, c3, c4⟩
      · exact Or.inl c2
      · exact Or.inr ⟨x, per, hcand x c2, by rw [hz4]; exact c3, c4⟩
  · exact Post.ok (a := (p2, false)) ⟨a5, a6, a3, a7, a4, fun h => Bool.noConfusion h⟩

end PD
end Verif
