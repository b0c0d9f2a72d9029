import Verif.Model.DrWavAdpcm
import Verif.Proof.DrWavRead
/-!
# The loops of the ADPCM decoders
-/
namespace Verif
namespace DrWav

variable {σ τ : Type}

/-- How blocks of a compressed format are decoded: a header of `hl` bytes gives `hs` samples, then each group of `gl` bytes `gn` samples. -/
structure Dec (τ : Type) where
  hl : Nat
  gl : Nat
  hs : Nat
  gn : Nat
  head : List Byte → τ × List Int
  grp : τ → List Byte → Option (τ × List Int)

/-- The samples of groups. -/
def Dec.body (d : Dec τ) : τ → List (List Byte) → Option (List Int)
  | _, [] => some []
  | s, g :: gs => (d.grp s g).bind fun r => (d.body r.1 gs).map (r.2 ++ ·)

/-- The groups of a block. -/
def Dec.groupsOf (d : Dec τ) (b : List Byte) : List (List Byte) := groups d.gl ((b.length - d.hl) / d.gl) (b.drop d.hl)

/-- The samples of a block. -/
def Dec.block (d : Dec τ) (b : List Byte) : Option (List Int) :=
  (d.body (d.head (b.take d.hl)).1 (d.groupsOf b)).map ((d.head (b.take d.hl)).2 ++ ·)

/-- The samples of blocks. -/
def Dec.blocks (d : Dec τ) : List (List Byte) → Option (List Int)
  | [] => some []
  | b :: bs => (d.block b).bind fun x => (d.blocks bs).map (x ++ ·)

/-- Samples per block. -/
def Dec.per (d : Dec τ) (align : Nat) : Nat := d.hs + d.gn * ((align - d.hl) / d.gl)

/-- The state after reading `n` bytes of the file; only decoding state changes. -/
def Moved (s s' : Ad σ) (n : Nat) : Prop :=
  s'.w = { s.w with file := { s.w.file with pos := s.w.file.pos + n } } ∧ s'.cur = s.cur

/-- What the decoder and the specification have to do with each other. -/
structure Implements (c : Codec σ) (d : Dec τ) (view : σ → τ) (ch : Nat) : Prop where
  gl_pos : 0 < d.gl
  hs_pos : 0 < d.hs
  gn_pos : 0 < d.gn
  hs_len : ∀ h, (d.head h).2.length = d.hs
  gn_len : ∀ s g r, d.grp s g = some r → r.2.length = d.gn
  header : ∀ (s : Ad σ) (h rest : List Byte), s.w.channels = ch → s.cache.length = c.size → s.w.file.bytes.drop s.w.file.pos = h ++ rest → h.length = d.hl →
    d.hl ≤ s.w.align → s.w.align < 65536 →
    ∃ s', c.header s = .ok (true, s') ∧ Moved s s' d.hl ∧ s'.rem = s.w.align - d.hl ∧ s'.cache.length = c.size ∧ s'.count = d.hs ∧ s'.count ≤ c.size ∧
      view s'.st = (d.head h).1 ∧ (s'.cache.drop (c.size - s'.count)).map toS16 = (d.head h).2
  load : ∀ (s : Ad σ) (g rest : List Byte) (r : τ × List Int), s.w.channels = ch → s.cache.length = c.size → s.w.file.bytes.drop s.w.file.pos = g ++ rest →
    g.length = d.gl → d.gl ≤ s.rem → s.rem < 65536 → d.grp (view s.st) g = some r →
    ∃ s', c.load s = .ok (true, s') ∧ Moved s s' d.gl ∧ s'.rem = s.rem - d.gl ∧ s'.cache.length = c.size ∧ s'.count = d.gn ∧ s'.count ≤ c.size ∧
      view s'.st = r.1 ∧ (s'.cache.drop (c.size - s'.count)).map toS16 = r.2
  short : ∀ s : Ad σ, s.w.channels = ch → (s.w.file.bytes.drop s.w.file.pos).length < d.hl → c.header s = .ok (false, s.at (fread s.w.file d.hl).2)

/-- Decoding at the end of the file changes nothing. (True of Microsoft ADPCM.) -/
def ShortLoad (c : Codec σ) (d : Dec τ) (ch : Nat) : Prop :=
  ∀ s : Ad σ, s.w.channels = ch → (s.w.file.bytes.drop s.w.file.pos).length < d.gl → c.load s = .ok (false, s.at (fread s.w.file d.gl).2)

/-- Blocks of the right size and what follows them; the last one may be cut off. When `miss` samples are not in the file, what follows is too short. -/
inductive Shape (c : Codec σ) (d : Dec τ) (ch align miss : Nat) : List (List Byte) → List Byte → Prop where
  | nil (tail : List Byte) (h : miss ≠ 0 → tail.length < d.hl) : Shape c d ch align miss [] tail
  | cons (b : List Byte) (bs : List (List Byte)) (tail : List Byte) (h : b.length = align) (hs : Shape c d ch align miss bs tail) : Shape c d ch align miss (b :: bs) tail
  | cut (b tail : List Byte) (h1 : d.hl ≤ b.length) (h2 : b.length < align) (h3 : d.gl ∣ b.length - d.hl) (h4 : tail.length < d.gl) (h5 : miss ≠ 0)
      (h6 : ShortLoad c d ch) : Shape c d ch align miss [b] tail

theorem Shape.full {c : Codec σ} {d : Dec τ} {ch align : Nat} {bs : List (List Byte)} {tail : List Byte} (h : Shape c d ch align 0 bs tail) : ∀ b ∈ bs, b.length = align := by
  induction bs with
  | nil => simp
  | cons b bs ih =>
    cases h with
    | cons _ _ _ h hs =>
      intro b' hb'
      rcases List.mem_cons.1 hb' with rfl | hb'
      · exact h
      · exact ih hs b' hb'
    | cut _ _ _ _ _ _ h5 _ => exact absurd rfl h5

theorem Shape.of_full {c : Codec σ} {d : Dec τ} {ch align miss : Nat} {bs : List (List Byte)} {tail : List Byte} (h : ∀ b ∈ bs, b.length = align)
    (ht : miss ≠ 0 → tail.length < d.hl) : Shape c d ch align miss bs tail := by
  induction bs with
  | nil => exact .nil _ ht
  | cons b bs ih => exact .cons _ _ _ (h b (by simp)) (ih fun b' hb' => h b' (by simp [hb']))

/-- The state of a reader of a well-formed file: the cached samples, the groups left in the block and the blocks left, and the samples that are still to come. `B` bounds the
number of samples left in the block. `miss` is the number of samples that the header of the file announces but the file does not contain: what follows the blocks is then too
short for the header of a block, or for the rest of the current one. -/
structure Inv (c : Codec σ) (d : Dec τ) (view : σ → τ) (ch B : Nat) (s : Ad σ) (gs bs : List (List Byte)) (tail : List Byte) (fut : List Int) (miss : Nat) : Prop where
  chan : s.w.channels = ch
  len : s.cache.length = c.size
  cnt : s.count ≤ c.size
  drop : s.w.file.bytes.drop s.w.file.pos = gs.flatten ++ (bs.flatten ++ tail)
  glen : ∀ g ∈ gs, g.length = d.gl
  rest : (s.rem = d.gl * gs.length ∧ Shape c d ch s.w.align miss bs tail) ∨
    (d.gl * gs.length < s.rem ∧ bs = [] ∧ tail.length < d.gl ∧ miss ≠ 0 ∧ ShortLoad c d ch)
  rem' : s.rem < 65536
  al : d.hl ≤ s.w.align
  al' : s.w.align < 65536
  dvd : d.gl ∣ s.w.align - d.hl
  bound : s.count + d.gn * gs.length ≤ B
  fut_eq : ∃ xs ys, d.body (view s.st) gs = some xs ∧ d.blocks bs = some ys ∧ fut = (s.cache.drop (c.size - s.count)).map toS16 ++ (xs ++ ys)
  total : s.cur + fut.length + miss = s.w.total

variable {c : Codec σ} {d : Dec τ} {view : σ → τ} {ch : Nat}

/-- When no samples are missing, all blocks are complete. -/
theorem Inv.whole {B : Nat} {s : Ad σ} {gs bs : List (List Byte)} {tail : List Byte} {fut : List Int} (h : Inv c d view ch B s gs bs tail fut 0) :
    s.rem = d.gl * gs.length ∧ Shape c d ch s.w.align 0 bs tail := by
  rcases h.rest with h1 | ⟨-, -, -, h1, -⟩
  · exact h1
  · exact absurd rfl h1

theorem dec_body_length (I : Implements c d view ch) (t : τ) (gs : List (List Byte)) (xs : List Int) (h : d.body t gs = some xs) :
    xs.length = d.gn * gs.length := by
  induction gs generalizing t xs with
  | nil => rw [Dec.body] at h; rw [← Option.some.inj h]; simp
  | cons g gs ih =>
    rw [Dec.body] at h
    cases e : d.grp t g with
    | none => rw [e] at h; exact absurd h (by simp)
    | some r =>
      rw [e] at h
      simp only [Option.bind_some] at h
      cases e2 : d.body r.1 gs with
      | none => rw [e2] at h; exact absurd h (by simp)
      | some ys =>
        rw [e2] at h
        simp only [Option.map_some, Option.some.injEq] at h
        subst h
        rw [List.length_append, I.gn_len _ _ _ e, ih _ _ e2, List.length_cons]
        ring

/-- Taking the cached samples. -/
theorem dec_drain_spec {B : Nat} {s : Ad σ} {gs bs : List (List Byte)} {tail : List Byte} {fut : List Int} {miss : Nat} (n : Nat)
    (h : Inv c d view ch B s gs bs tail fut miss) :
    ∃ s', drain c.size n s = .ok (fut.take (min n s.count), s') ∧ Inv c d view ch (B - min n s.count) s' gs bs tail (fut.drop (min n s.count)) miss ∧
      s'.count = s.count - min n s.count := by
  induction n generalizing s fut B with
  | zero => exact ⟨s, by simp [drain], by simpa using h, by simp⟩
  | succ n ih =>
    rw [drain]
    by_cases h0 : s.count = 0
    · rw [if_pos (Or.inl h0)]
      exact ⟨s, by simp [h0], by simpa [h0] using h, by simp [h0]⟩
    have hl := h.len
    have hc := h.cnt
    obtain ⟨xs, ys, e1, e2, e3⟩ := h.fut_eq
    have hlt : c.size - s.count < s.cache.length := by omega
    have ed : s.cache.drop (c.size - s.count) = s.cache[c.size - s.count] :: s.cache.drop (c.size - (s.count - 1)) := by
      rw [List.drop_eq_getElem_cons hlt]
      congr 2
      omega
    have e4 : fut = toS16 s.cache[c.size - s.count] :: ((s.cache.drop (c.size - (s.count - 1))).map toS16 ++ (xs ++ ys)) := by
      rw [e3, ed]; rfl
    have ht := h.total
    have hft : fut.length = ((s.cache.drop (c.size - (s.count - 1))).map toS16 ++ (xs ++ ys)).length + 1 := by
      conv_lhs => rw [e4]
      rfl
    rw [if_neg (by omega)]
    have hb := h.bound
    have h' : Inv c d view ch (B - 1) { s with count := s.count - 1, cur := s.cur + 1 } gs bs tail ((s.cache.drop (c.size - (s.count - 1))).map toS16 ++ (xs ++ ys)) miss := by
      refine ⟨h.chan, h.len, by simp only; omega, h.drop, h.glen, h.rest, h.rem', h.al, h.al', h.dvd, ?_, ⟨xs, ys, e1, e2, rfl⟩, ?_⟩
      · simp only; omega
      · simp only; omega
    obtain ⟨s', f1, f2, f3⟩ := ih h'
    have hm : min (n + 1) s.count = min n (s.count - 1) + 1 := by omega
    simp only at f1 f2 f3
    rw [readAt_ok hlt]
    simp only
    rw [f1]
    refine ⟨s', ?_, ?_, ?_⟩
    · rw [hm, e4, List.take_succ_cons]
    · rw [hm, e4, List.drop_succ_cons]
      have : B - (min n (s.count - 1) + 1) = B - 1 - min n (s.count - 1) := by omega
      rw [this]
      exact f2
    · rw [f3, hm]; omega

theorem groupsOf_flatten (d : Dec τ) (b : List Byte) (hd : d.gl ∣ b.length - d.hl) :
    (d.groupsOf b).flatten = b.drop d.hl ∧ (∀ g ∈ d.groupsOf b, g.length = d.gl) ∧ (d.groupsOf b).length = (b.length - d.hl) / d.gl := by
  unfold Dec.groupsOf
  obtain ⟨k, hk⟩ := hd
  have hkl : (b.drop d.hl).length = d.gl * k := by rw [List.length_drop, hk]
  rcases Nat.eq_zero_or_pos d.gl with h0 | h0
  · rw [h0, Nat.div_zero]
    have : b.drop d.hl = [] := List.eq_nil_of_length_eq_zero (by rw [hkl, h0, Nat.zero_mul])
    rw [this]
    exact ⟨rfl, by simp [groups], rfl⟩
  rw [hk, Nat.mul_div_cancel_left _ h0]
  generalize b.drop d.hl = x at hkl
  clear hk
  refine ⟨?_, ?_, groups_length _ _ _⟩
  · induction k generalizing x with
    | zero => simp at hkl; simp [groups, hkl]
    | succ k ih =>
      rw [groups, List.flatten_cons, ih _ (by rw [List.length_drop, hkl, Nat.mul_succ]; omega), List.take_append_drop]
  · induction k generalizing x with
    | zero => simp [groups]
    | succ k ih =>
      intro g hg
      rw [groups, List.mem_cons] at hg
      rcases hg with rfl | hg
      · rw [List.length_take, hkl, Nat.mul_succ]; omega
      · exact ih _ (by rw [List.length_drop, hkl, Nat.mul_succ]; omega) g hg

/-- Beginning a block. -/
theorem dec_header_spec (I : Implements c d view ch) {B : Nat} {s : Ad σ} {gs bs : List (List Byte)} {tail : List Byte} {fut : List Int} {miss : Nat}
    (h : Inv c d view ch B s gs bs tail fut miss) (hc : s.count = 0) (hr : s.rem = 0) (ht : fut ≠ []) :
    ∃ s' gs' bs', c.header s = .ok (true, s') ∧ Inv c d view ch (d.per s.w.align) s' gs' bs' tail fut miss ∧ s'.count ≠ 0 ∧
      ∃ m, Moved s s' m := by
  obtain ⟨hrem, hsh⟩ : s.rem = d.gl * gs.length ∧ Shape c d ch s.w.align miss bs tail := by
    rcases h.rest with h1 | h1
    · exact h1
    · omega
  have hg : gs = [] := by
    have h1 := hrem
    rw [hr] at h1
    have h2 := I.gl_pos
    rcases Nat.mul_eq_zero.1 h1.symm with h3 | h3
    · omega
    · exact List.eq_nil_of_length_eq_zero h3
  obtain ⟨xs, ys, e1, e2, e3⟩ := h.fut_eq
  have hl := h.len
  rw [hg, Dec.body] at e1
  have e1' := (Option.some.inj e1).symm
  subst e1'
  have e4 : fut = ys := by rw [e3, hc, Nat.sub_zero, ← hl, List.drop_length]; rfl
  subst e4
  have htot := h.total
  cases bs with
  | nil =>
    rw [Dec.blocks] at e2
    exact absurd (Option.some.inj e2).symm ht
  | cons b bs =>
    obtain ⟨hb1, hb2, hb3, hb4⟩ : d.hl ≤ b.length ∧ b.length ≤ s.w.align ∧ d.gl ∣ b.length - d.hl ∧
        ((s.w.align - d.hl = d.gl * ((b.length - d.hl) / d.gl) ∧ Shape c d ch s.w.align miss bs tail) ∨
          (d.gl * ((b.length - d.hl) / d.gl) < s.w.align - d.hl ∧ bs = [] ∧ tail.length < d.gl ∧ miss ≠ 0 ∧ ShortLoad c d ch)) := by
      have hal := h.al
      have hdvd := h.dvd
      cases hsh with
      | cons _ _ _ h1 h2 => exact ⟨by omega, by omega, by rw [h1]; exact hdvd, Or.inl ⟨by rw [h1, Nat.mul_div_cancel' hdvd], h2⟩⟩
      | cut _ _ h1 h2 h3 h4 h5 h6 => exact ⟨h1, by omega, h3, Or.inr ⟨by rw [Nat.mul_div_cancel' h3]; omega, rfl, h4, h5, h6⟩⟩
    have hdr := h.drop
    rw [hg, List.flatten_nil, List.nil_append, List.flatten_cons] at hdr
    have hal := h.al
    obtain ⟨g1, g2, g3⟩ := groupsOf_flatten d b hb3
    have hdr2 : s.w.file.bytes.drop s.w.file.pos = b.take d.hl ++ ((d.groupsOf b).flatten ++ (bs.flatten ++ tail)) := by
      rw [hdr, g1, ← List.append_assoc (b.take d.hl), List.take_append_drop, List.append_assoc]
    obtain ⟨s', i1, ⟨i2, i2'⟩, i3, i4, i5, i6, i7, i8⟩ :=
      I.header s (b.take d.hl) _ h.chan hl hdr2 (by rw [List.length_take]; omega) hal h.al'
    refine ⟨s', d.groupsOf b, bs, i1, ?_, ?_, d.hl, i2, i2'⟩
    · rw [Dec.blocks] at e2
      cases e5 : d.block b with
      | none => rw [e5] at e2; exact absurd e2 (by simp)
      | some x =>
        rw [e5] at e2
        simp only [Option.bind_some] at e2
        cases e6 : d.blocks bs with
        | none => rw [e6] at e2; exact absurd e2 (by simp)
        | some z =>
          rw [e6] at e2
          simp only [Option.map_some, Option.some.injEq] at e2
          unfold Dec.block at e5
          cases e7 : d.body (d.head (b.take d.hl)).1 (d.groupsOf b) with
          | none => rw [e7] at e5; exact absurd e5 (by simp)
          | some u =>
            rw [e7] at e5
            simp only [Option.map_some, Option.some.injEq] at e5
            refine ⟨?_, i4, i6, ?_, g2, ?_, ?_, ?_, ?_, ?_, ?_, ⟨u, z, ?_, e6, ?_⟩, ?_⟩
            · rw [i2]; exact h.chan
            · rw [i2]
              simp only
              rw [← List.drop_drop, hdr2, List.drop_left' (by rw [List.length_take]; omega)]
            · rw [i3, g3, i2]
              exact hb4
            · rw [i3]; have := h.al'; omega
            · rw [i2]; exact h.al
            · rw [i2]; exact h.al'
            · rw [i2]; exact h.dvd
            · rw [i5, g3]; exact Nat.add_le_add_left (Nat.mul_le_mul_left _ (Nat.div_le_div_right (by omega))) _
            · rw [i7]; exact e7
            · rw [i8, ← e2, ← e5, List.append_assoc]
            · rw [i2', i2]; exact htot
    · have := I.hs_pos; omega

/-- Decoding a group. -/
theorem dec_load_spec (I : Implements c d view ch) {B : Nat} {s : Ad σ} {gs bs : List (List Byte)} {tail : List Byte} {fut : List Int} {miss : Nat}
    (h : Inv c d view ch B s gs bs tail fut miss) (hc : s.count = 0) (hr : gs ≠ []) :
    ∃ s' gs', c.load s = .ok (true, s') ∧ Inv c d view ch B s' gs' bs tail fut miss ∧ s'.count ≠ 0 ∧ ∃ m, Moved s s' m := by
  obtain ⟨xs, ys, e1, e2, e3⟩ := h.fut_eq
  have hl := h.len
  cases gs with
  | nil => exact absurd rfl hr
  | cons g gs =>
    rw [Dec.body] at e1
    cases e5 : d.grp (view s.st) g with
    | none => rw [e5] at e1; exact absurd e1 (by simp)
    | some r =>
      rw [e5] at e1
      simp only [Option.bind_some] at e1
      cases e6 : d.body r.1 gs with
      | none => rw [e6] at e1; exact absurd e1 (by simp)
      | some u =>
        rw [e6] at e1
        simp only [Option.map_some, Option.some.injEq] at e1
        have hdr := h.drop
        rw [List.flatten_cons, List.append_assoc] at hdr
        have hrem := h.rest
        rw [List.length_cons, Nat.mul_succ] at hrem
        have hle : d.gl * gs.length + d.gl ≤ s.rem := by rcases hrem with ⟨h1, -⟩ | ⟨h1, -⟩ <;> omega
        obtain ⟨s', i1, ⟨i2, i2'⟩, i3, i4, i5, i6, i7, i8⟩ :=
          I.load s g _ r h.chan hl hdr (h.glen g (by simp)) (by omega) h.rem' e5
        have hb := h.bound
        rw [List.length_cons, Nat.mul_succ] at hb
        refine ⟨s', gs, i1, ⟨?_, i4, i6, ?_, fun g' hg' => h.glen g' (by simp [hg']), ?_, ?_, ?_, ?_, ?_, ?_, ⟨u, ys, ?_, e2, ?_⟩, ?_⟩, ?_, d.gl, i2, i2'⟩
        · rw [i2]; exact h.chan
        · rw [i2]
          simp only
          rw [← List.drop_drop, hdr, List.drop_left' (h.glen g (by simp))]
        · rw [i3, i2]
          rcases hrem with ⟨h1, h2⟩ | ⟨h1, h2⟩
          · exact Or.inl ⟨by omega, h2⟩
          · exact Or.inr ⟨by omega, h2⟩
        · rw [i3]; have := h.rem'; omega
        · rw [i2]; exact h.al
        · rw [i2]; exact h.al'
        · rw [i2]; exact h.dvd
        · omega
        · rw [i7]; exact e6
        · rw [i8, e3, ← e1, hc, Nat.sub_zero, ← hl, List.drop_length]
          simp [List.append_assoc]
        · rw [i2', i2]; exact h.total
        · have := I.gn_pos; omega

/-- The same file, anywhere in it. -/
def Same (w0 w : Wav) : Prop := ∃ p, w = { w0 with file := { w0.file with pos := p } }

theorem Same.moved {w0 : Wav} {s s' : Ad σ} {n : Nat} (h : Same w0 s.w) (m : Moved s s' n) : Same w0 s'.w := by
  obtain ⟨p, h⟩ := h
  exact ⟨p + n, by rw [m.1, h]⟩

theorem Same.align {w0 w : Wav} (h : Same w0 w) : w.align = w0.align := by
  obtain ⟨p, h⟩ := h
  rw [h]

theorem drain_w (m : Nat) (s : Ad σ) (xs : List Int) (s' : Ad σ) (h : drain c.size m s = .ok (xs, s')) : s'.w = s.w := by
  induction m generalizing s xs with
  | zero => rw [drain] at h; injection h with h; injection h with _ h; rw [← h]
  | succ m ih =>
    rw [drain] at h
    split at h
    · injection h with h; injection h with _ h; rw [← h]
    · split at h
      · exact absurd h (by simp)
      · split at h
        · exact absurd h (by simp)
        · rename_i vs s2 e
          injection h with h; injection h with _ h
          rw [← h]
          rw [← h] at ih
          have := ih _ _ e
          exact this

theorem drain_rem (m : Nat) (s : Ad σ) (xs : List Int) (s' : Ad σ) (h : drain c.size m s = .ok (xs, s')) : s'.rem = s.rem := by
  induction m generalizing s xs with
  | zero => rw [drain] at h; injection h with h; injection h with _ h; rw [← h]
  | succ m ih =>
    rw [drain] at h
    split at h
    · injection h with h; injection h with _ h; rw [← h]
    · split at h
      · exact absurd h (by simp)
      · split at h
        · exact absurd h (by simp)
        · rename_i vs s2 e
          injection h with h; injection h with _ h
          rw [← h]
          rw [← h] at ih
          have := ih _ _ e
          exact this

/-- A reader of a well-formed file, with the samples that are still to come. The current block, if any, has been begun: less than all of its samples are left.
`miss` samples are announced but not in the file. -/
def GoodCut (c : Codec σ) (d : Dec τ) (view : σ → τ) (ch : Nat) (w0 : Wav) (s : Ad σ) (fut : List Int) (miss : Nat) : Prop :=
  Same w0 s.w ∧ ∃ gs bs tail, Inv c d view ch (d.per w0.align - 1) s gs bs tail fut miss

/-- A reader of a well-formed file that contains all samples announced. -/
abbrev GoodAd (c : Codec σ) (d : Dec τ) (view : σ → τ) (ch : Nat) (w0 : Wav) (s : Ad σ) (fut : List Int) : Prop := GoodCut c d view ch w0 s fut 0

/-- When nothing is to come, nothing is left of a block, and there are no more blocks. -/
theorem good_end (I : Implements c d view ch) {B : Nat} {s : Ad σ} {gs bs : List (List Byte)} {tail : List Byte} {miss : Nat}
    (h : Inv c d view ch B s gs bs tail [] miss) : s.count = 0 ∧ gs = [] ∧ bs = [] := by
  obtain ⟨xs, ys, e1, e2, e3⟩ := h.fut_eq
  have e4 := congrArg List.length e3
  rw [List.length_append, List.length_append, List.length_map, List.length_drop, h.len, dec_body_length I _ _ _ e1, List.length_nil] at e4
  have h1 := h.cnt
  refine ⟨by omega, ?_, ?_⟩
  · rcases Nat.mul_eq_zero.1 (by omega : d.gn * gs.length = 0) with h3 | h3
    · have := I.gn_pos; omega
    · exact List.eq_nil_of_length_eq_zero h3
  · cases bs with
    | nil => rfl
    | cons b bs =>
      exfalso
      rw [Dec.blocks] at e2
      cases e5 : d.block b with
      | none => rw [e5] at e2; exact absurd e2 (by simp)
      | some x =>
        rw [e5] at e2
        simp only [Option.bind_some] at e2
        cases e6 : d.blocks bs with
        | none => rw [e6] at e2; exact absurd e2 (by simp)
        | some z =>
          rw [e6] at e2
          simp only [Option.map_some, Option.some.injEq] at e2
          unfold Dec.block at e5
          cases e7 : d.body (d.head (b.take d.hl)).1 (d.groupsOf b) with
          | none => rw [e7] at e5; exact absurd e5 (by simp)
          | some u =>
            rw [e7] at e5
            simp only [Option.map_some, Option.some.injEq] at e5
            rw [← e2, ← e5, List.length_append, List.length_append, I.hs_len] at e4
            have := I.hs_pos
            omega

/-- Beginning a block at the end of the file. -/
theorem dec_short_spec (I : Implements c d view ch) {B : Nat} {s : Ad σ} {tail : List Byte} {miss : Nat}
    (h : Inv c d view ch B s [] [] tail [] miss) (hm : miss ≠ 0) (hr : s.rem = 0) :
    ∃ s', c.header s = .ok (false, s') ∧ Inv c d view ch B s' [] [] [] [] miss ∧ ∃ m, Moved s s' m := by
  have hdr := h.drop
  simp only [List.flatten_nil, List.nil_append] at hdr
  have ht : tail.length < d.hl := by
    rcases h.rest with ⟨-, h1⟩ | h1
    · cases h1 with
      | nil _ h => exact h hm
    · omega
  refine ⟨_, I.short s h.chan (by rw [hdr]; exact ht), ?_, tail.length, ?_, rfl⟩
  · refine ⟨h.chan, h.len, h.cnt, ?_, h.glen, Or.inl ⟨show s.rem = d.gl * 0 by omega, .nil _ fun _ => by rw [List.length_nil]; omega⟩, h.rem', h.al, h.al', h.dvd, h.bound, h.fut_eq, h.total⟩
    simp only [Ad.at, fread, hdr]
    rw [List.take_of_length_le (by omega), ← List.drop_drop, hdr, List.drop_length]
    rfl
  · simp only [Ad.at, fread, hdr]
    rw [List.take_of_length_le (by omega)]

/-- Decoding at the end of the file. -/
theorem dec_short_load {B : Nat} {s : Ad σ} {bs : List (List Byte)} {tail : List Byte} {fut : List Int} {miss : Nat}
    (h : Inv c d view ch B s [] bs tail fut miss) (hr : s.rem ≠ 0) (hc : s.count = 0) :
    fut = [] ∧ ∃ s', c.load s = .ok (false, s') ∧ Inv c d view ch B s' [] [] [] [] miss ∧ ∃ m, Moved s s' m := by
  have hdr := h.drop
  obtain ⟨h1, rfl, h2, h3, h4⟩ : d.gl * 0 < s.rem ∧ bs = [] ∧ tail.length < d.gl ∧ miss ≠ 0 ∧ ShortLoad c d ch := by
    rcases h.rest with ⟨h1, -⟩ | h1
    · exact absurd h1 (by simpa using hr)
    · exact h1
  simp only [List.flatten_nil, List.nil_append] at hdr
  obtain ⟨xs, ys, e1, e2, e3⟩ := h.fut_eq
  rw [Dec.body] at e1
  rw [Dec.blocks] at e2
  have hfut : fut = [] := by
    rw [e3, ← Option.some.inj e1, ← Option.some.inj e2, hc, Nat.sub_zero, ← h.len, List.drop_length]
    rfl
  subst hfut
  refine ⟨rfl, _, h4 s h.chan (by rw [hdr]; exact h2), ?_, tail.length, ?_, rfl⟩
  · refine ⟨h.chan, h.len, h.cnt, ?_, h.glen, Or.inr ⟨h1, rfl, by rw [List.length_nil]; omega, h3, h4⟩, h.rem', h.al, h.al', h.dvd, h.bound, h.fut_eq, h.total⟩
    simp only [Ad.at, fread, hdr]
    rw [List.take_of_length_le (by omega), ← List.drop_drop, hdr, List.drop_length]
    rfl
  · simp only [Ad.at, fread, hdr]
    rw [List.take_of_length_le (by omega)]

theorem readFuel_spec (I : Implements c d view ch) {w0 : Wav} (k n : Nat) {s : Ad σ} {fut : List Int} {miss : Nat} (h : GoodCut c d view ch w0 s fut miss)
    (hk : 2 * n + (if s.count = 0 then 1 else 0) ≤ k) :
    ∃ s', readFuel c k s n = .ok (fut.take n, s') ∧ GoodCut c d view ch w0 s' (fut.drop n) miss := by
  induction k generalizing s n fut with
  | zero =>
    have : n = 0 := by omega
    subst this
    exact ⟨s, by simp [readFuel], by simpa using h⟩
  | succ k ih =>
    rw [readFuel]
    by_cases hn : n = 0
    · rw [if_pos (Or.inl hn)]
      subst hn
      exact ⟨s, by simp, by simpa using h⟩
    obtain ⟨ha, gs, bs, tail, h⟩ := h
    by_cases hcur : s.w.total ≤ s.cur
    · rw [if_pos (Or.inr hcur)]
      have ht := h.total
      have : fut = [] := List.eq_nil_of_length_eq_zero (by omega)
      subst this
      exact ⟨s, by simp, ha, gs, bs, tail, by simpa using h⟩
    rw [if_neg (by omega)]
    by_cases hend : fut = [] ∧ s.rem = 0
    · obtain ⟨hfut, hr⟩ := hend
      subst hfut
      obtain ⟨hz, hg, hb⟩ := good_end I h
      subst hg hb
      have hmiss : miss ≠ 0 := by
        have := h.total
        rw [List.length_nil] at this
        omega
      obtain ⟨s', e1, e2, m, e3⟩ := dec_short_spec I h hmiss hr
      rw [if_pos ⟨hz, hr⟩, e1]
      exact ⟨s', by simp, ha.moved e3, [], [], [], by simpa using e2⟩
    have key : ∃ s1 gs1 bs1 B1, (if s.count = 0 ∧ s.rem = 0 then c.header s else .ok (true, s)) = .ok (true, s1) ∧
        Inv c d view ch B1 s1 gs1 bs1 tail fut miss ∧ Same w0 s1.w ∧ B1 - min n s1.count ≤ d.per w0.align - 1 ∧
        (s1.count = 0 → s.count = 0 ∧ s1.rem ≠ 0) := by
      by_cases hh : s.count = 0 ∧ s.rem = 0
      · rw [if_pos hh]
        obtain ⟨s1, gs1, bs1, e1, e2, e3, m, e4⟩ := dec_header_spec I h hh.1 hh.2 (fun hf => hend ⟨hf, hh.2⟩)
        exact ⟨s1, gs1, bs1, _, e1, e2, ha.moved e4, by rw [ha.align]; omega, fun h => absurd h e3⟩
      · rw [if_neg hh]
        refine ⟨s, gs, bs, _, rfl, h, ha, by omega, fun h => ⟨h, ?_⟩⟩
        exact not_and.1 hh h
    obtain ⟨s1, gs1, bs1, B1, e1, h1, ha1, hB1, hz1⟩ := key
    rw [e1]
    simp only
    obtain ⟨s2, f1, f2, f3⟩ := dec_drain_spec n h1
    rw [f1]
    simp only
    obtain ⟨xs, ys, -, -, e3⟩ := h1.fut_eq
    have hcl : s1.count ≤ fut.length := by
      rw [e3, List.length_append, List.length_map, List.length_drop, h1.len]
      have := h1.cnt
      omega
    have htl : (fut.take (min n s1.count)).length = min n s1.count := by rw [List.length_take]; omega
    have hf2 : Inv c d view ch (d.per w0.align - 1) s2 gs1 bs1 tail (fut.drop (min n s1.count)) miss :=
      { f2 with bound := le_trans f2.bound hB1 }
    have ha2 : Same w0 s2.w := by rw [drain_w _ _ _ _ f1]; exact ha1
    rw [htl]
    by_cases hmn : min n s1.count = n
    · rw [if_pos hmn]
      exact ⟨s2, by rw [hmn], ha2, gs1, bs1, tail, by rw [← hmn]; exact hf2⟩
    rw [if_neg hmn]
    have hm : min n s1.count = s1.count := by omega
    have hc2 : s2.count = 0 := by omega
    by_cases hcut : gs1 = [] ∧ s2.rem ≠ 0
    · obtain ⟨hg, hr⟩ := hcut
      subst hg
      obtain ⟨k1, s3, k2, k3, m, k4⟩ := dec_short_load hf2 hr hc2
      rw [if_pos ⟨hc2, hr⟩, k2]
      have hfl : fut.length ≤ min n s1.count := List.drop_eq_nil_iff.1 k1
      refine ⟨s3, ?_, ha2.moved k4, [], [], [], ?_⟩
      · simp only
        rw [List.take_of_length_le hfl, List.take_of_length_le (by omega)]
      · rw [List.drop_eq_nil_of_le (by omega)]
        exact k3
    have key2 : ∃ s3, (if s2.count = 0 ∧ s2.rem ≠ 0 then c.load s2 else .ok (true, s2)) = .ok (true, s3) ∧
        GoodCut c d view ch w0 s3 (fut.drop (min n s1.count)) miss ∧ (s2.rem ≠ 0 → s3.count ≠ 0) := by
      by_cases hh : s2.rem ≠ 0
      · rw [if_pos ⟨hc2, hh⟩]
        obtain ⟨s3, gs3, g1, g2, g3, m, g4⟩ := dec_load_spec I hf2 hc2 (fun hg => hcut ⟨hg, hh⟩)
        exact ⟨s3, g1, ⟨ha2.moved g4, gs3, bs1, tail, g2⟩, fun _ => g3⟩
      · rw [if_neg (by tauto)]
        exact ⟨s2, rfl, ⟨ha2, gs1, bs1, tail, hf2⟩, fun h => absurd h hh⟩
    obtain ⟨s3, g1, g2, g3⟩ := key2
    rw [g1]
    simp only
    have hrem : s2.rem = s1.rem := drain_rem _ _ _ _ f1
    have hfuel : 2 * (n - min n s1.count) + (if s3.count = 0 then 1 else 0) ≤ k := by
      rcases Nat.eq_zero_or_pos s1.count with h0 | h0
      · obtain ⟨i1, i2⟩ := hz1 h0
        rw [if_pos i1] at hk
        rw [if_neg (g3 (by rw [hrem]; exact i2))]
        omega
      · split <;> split at hk <;> omega
    obtain ⟨s4, k1, k2⟩ := ih (n - min n s1.count) g2 hfuel
    rw [k1]
    refine ⟨s4, ?_, ?_⟩
    · simp only
      conv_rhs => rw [show n = min n s1.count + (n - min n s1.count) by omega, List.take_add]
    · rw [List.drop_drop] at k2
      rw [show min n s1.count + (n - min n s1.count) = n by omega] at k2
      exact k2

theorem readS16_spec (I : Implements c d view ch) {w0 : Wav} (n : Nat) {s : Ad σ} {fut : List Int} {miss : Nat} (h : GoodCut c d view ch w0 s fut miss) :
    ∃ s', readS16 c s n = .ok (fut.take n, s') ∧ GoodCut c d view ch w0 s' (fut.drop n) miss :=
  readFuel_spec I (2 * n + 1) n h (by split <;> omega)

theorem readAd_spec (I : Implements c d view ch) {w0 : Wav} (n : Nat) {s : Ad σ} {fut : List Int} {miss : Nat} (h : GoodCut c d view ch w0 s fut miss) :
    ∃ s', readAd c s n = .ok (fut.take n, s') ∧ GoodCut c d view ch w0 s' (fut.drop n) miss := by
  induction n using Nat.strong_induction_on generalizing s fut with
  | _ n ih =>
    rw [readAd]
    by_cases h0 : n = 0
    · rw [if_pos h0]
      subst h0
      exact ⟨s, by simp, by simpa using h⟩
    rw [if_neg h0]
    obtain ⟨s1, e1, e2⟩ := readS16_spec I (min n 2048) h
    rw [e1]
    simp only
    by_cases hl : (fut.take (min n 2048)).length = 0
    · rw [dif_pos hl]
      have : fut = [] := by
        rw [List.length_take] at hl
        exact List.eq_nil_of_length_eq_zero (by omega)
      subst this
      exact ⟨s1, by simp, by simpa using e2⟩
    rw [dif_neg hl]
    have hl' : 0 < (fut.take (min n 2048)).length := by omega
    have hle : (fut.take (min n 2048)).length ≤ n := by rw [List.length_take]; omega
    obtain ⟨s2, e3, e4⟩ := ih (n - (fut.take (min n 2048)).length) (by omega) e2
    rw [e3]
    refine ⟨s2, ?_, ?_⟩
    · simp only
      rw [List.length_take]
      rcases Nat.le_total fut.length (min n 2048) with h1 | h1
      · rw [List.take_of_length_le h1, List.drop_eq_nil_of_le h1, List.take_nil, List.append_nil, List.take_of_length_le (by omega)]
      · rw [Nat.min_eq_left h1, ← List.take_add, show min n 2048 + (n - min n 2048) = n by omega]
    · rw [List.drop_drop, List.length_take] at e4
      rcases Nat.le_total fut.length (min n 2048) with h1 | h1
      · rw [List.drop_eq_nil_of_le (by omega)] at e4
        rw [List.drop_eq_nil_of_le (by omega)]
        exact e4
      · rw [Nat.min_eq_left h1, show min n 2048 + (n - min n 2048) = n by omega] at e4
        exact e4

theorem skipAd_spec (I : Implements c d view ch) {w0 : Wav} (n : Nat) {s : Ad σ} {fut : List Int} {miss : Nat} (h : GoodCut c d view ch w0 s fut miss) (hn : n ≤ fut.length) :
    ∃ s', skipAd c s n = .ok (true, s') ∧ GoodCut c d view ch w0 s' (fut.drop n) miss := by
  induction n using Nat.strong_induction_on generalizing s fut with
  | _ n ih =>
    rw [skipAd]
    by_cases h0 : n = 0
    · rw [dif_pos h0]
      subst h0
      exact ⟨s, rfl, by simpa using h⟩
    rw [dif_neg h0]
    obtain ⟨s1, e1, e2⟩ := readS16_spec I (min n 2048) h
    rw [e1]
    simp only
    rw [if_pos (by rw [List.length_take]; omega)]
    obtain ⟨s2, e3, e4⟩ := ih (n - min n 2048) (by omega) e2 (by rw [List.length_drop]; omega)
    refine ⟨s2, e3, ?_⟩
    rw [List.drop_drop, show min n 2048 + (n - min n 2048) = n by omega] at e4
    exact e4

/-! ## The beginning, and going back to it -/

theorem dec_blocks_length (I : Implements c d view ch) {align : Nat} (hdv : d.gl ∣ align - d.hl) (bs : List (List Byte))
    (hb : ∀ b ∈ bs, b.length = align) (ys : List Int) (h : d.blocks bs = some ys) : ys.length = d.per align * bs.length := by
  induction bs generalizing ys with
  | nil => rw [Dec.blocks] at h; rw [← Option.some.inj h]; simp
  | cons b bs ih =>
    rw [Dec.blocks] at h
    cases e : d.block b with
    | none => rw [e] at h; exact absurd h (by simp)
    | some x =>
      rw [e] at h
      simp only [Option.bind_some] at h
      cases e2 : d.blocks bs with
      | none => rw [e2] at h; exact absurd h (by simp)
      | some z =>
        rw [e2] at h
        simp only [Option.map_some, Option.some.injEq] at h
        subst h
        rw [List.length_append, ih (fun b' hb' => hb b' (by simp [hb'])) _ e2, List.length_cons]
        unfold Dec.block at e
        cases e3 : d.body (d.head (b.take d.hl)).1 (d.groupsOf b) with
        | none => rw [e3] at e; exact absurd e (by simp)
        | some u =>
          rw [e3] at e
          simp only [Option.map_some, Option.some.injEq] at e
          rw [← e, List.length_append, I.hs_len, dec_body_length I _ _ _ e3]
          have hbl := hb b (by simp)
          rw [(groupsOf_flatten d b (by rw [hbl]; exact hdv)).2.2, hbl]
          unfold Dec.per
          ring

/-- A well-formed file: a whole number of blocks are there, of a size that suits the format, and they can be decoded. -/
structure WellFormed (d : Dec τ) (ch : Nat) (w : Wav) (xs : List Int) : Prop where
  chan : w.channels = ch
  al : d.hl ≤ w.align
  al' : w.align < 65536
  dvd : d.gl ∣ w.align - d.hl
  blocks : ∃ bs tail, w.file.bytes.drop w.file.pos = bs.flatten ++ tail ∧ (∀ b ∈ bs, b.length = w.align) ∧ d.blocks bs = some xs
  total : xs.length = w.total

/-- A reader that is at the first sample and not inside a block, of a file that may be cut off. -/
theorem good_start_cut {w0 : Wav} {xs : List Int} {miss : Nat} (hch : w0.channels = ch) (hal : d.hl ≤ w0.align) (hal' : w0.align < 65536) (hdvd : d.gl ∣ w0.align - d.hl)
    {bs : List (List Byte)} {tail : List Byte} (h1 : w0.file.bytes.drop w0.file.pos = bs.flatten ++ tail) (h2 : Shape c d ch w0.align miss bs tail) (h3 : d.blocks bs = some xs)
    (ht : xs.length + miss = w0.total) (s : Ad σ) (hw : s.w = w0) (hcur : s.cur = 0)
    (hc : s.count = 0) (hr : s.rem = 0) (hl : s.cache.length = c.size) : GoodCut c d view ch w0 s xs miss := by
  refine ⟨⟨w0.file.pos, by rw [hw]⟩, [], bs, tail, ?_⟩
  subst hw
  refine ⟨hch, hl, by omega, by simpa using h1, by simp, Or.inl ⟨by simp [hr], h2⟩, by omega, hal, hal', hdvd, ?_, ⟨[], xs, rfl, h3, ?_⟩, ?_⟩
  · simp [hc]
  · rw [hc, Nat.sub_zero, ← hl, List.drop_length]; simp
  · rw [hcur, Nat.zero_add, ht]

/-- A reader that is at the first sample and not inside a block. -/
theorem good_start {w0 : Wav} {xs : List Int} (h : WellFormed d ch w0 xs) (s : Ad σ) (hw : s.w = w0) (hcur : s.cur = 0)
    (hc : s.count = 0) (hr : s.rem = 0) (hl : s.cache.length = c.size) : GoodAd c d view ch w0 s xs := by
  obtain ⟨bs, tail, h1, h2, h3⟩ := h.blocks
  exact good_start_cut h.chan h.al h.al' h.dvd h1 (.of_full h2 fun h => absurd rfl h) h3 h.total s hw hcur hc hr hl

/-- At the boundary of blocks nothing is left of a block. -/
theorem good_boundary (I : Implements c d view ch) {w0 : Wav} {s : Ad σ} {fut : List Int} (h : GoodAd c d view ch w0 s fut)
    (hm : fut.length % d.per w0.align = 0) : s.count = 0 ∧ s.rem = 0 := by
  obtain ⟨ha, gs, bs, tail, h⟩ := h
  obtain ⟨hrem, hsh⟩ := h.whole
  obtain ⟨xs, ys, e1, e2, e3⟩ := h.fut_eq
  have h1 : fut.length = s.count + d.gn * gs.length + d.per w0.align * bs.length := by
    rw [e3, List.length_append, List.length_append, List.length_map, List.length_drop, h.len, dec_body_length I _ _ _ e1,
      dec_blocks_length I h.dvd bs hsh.full ys e2, ha.align]
    have := h.cnt
    omega
  have hp : 0 < d.per w0.align := by unfold Dec.per; have := I.hs_pos; omega
  have hb := h.bound
  rw [h1, Nat.add_mul_mod_self_left, Nat.mod_eq_of_lt (by omega)] at hm
  have hg : gs.length = 0 := by
    rcases Nat.mul_eq_zero.1 (by omega : d.gn * gs.length = 0) with h3 | h3
    · have := I.gn_pos; omega
    · exact h3
  exact ⟨by omega, by rw [hrem, hg, Nat.mul_zero]⟩

theorem restart_same {w0 w : Wav} (h : Same w0 w) (hp : toI32 w0.dataPos = w0.file.pos) (hr : w0.remaining = w0.dataSize) : restart w = some w0 := by
  obtain ⟨p, rfl⟩ := h
  unfold restart fseekSet
  simp only
  rw [hp, if_pos (by omega)]
  simp only [Option.map_some, Int.toNat_natCast, Option.some.injEq]
  obtain ⟨⟨_, _⟩, _, _, _, _, _, _, _, _, _, _⟩ := w0
  simp only at hr
  subst hr
  rfl

/-- Going back to the first sample, at the boundary of blocks. -/
theorem restartAd_spec (I : Implements c d view ch) {w0 : Wav} {xs : List Int} (hw : WellFormed d ch w0 xs) (hp : toI32 w0.dataPos = w0.file.pos)
    (hr : w0.remaining = w0.dataSize) {s : Ad σ} {fut : List Int} (h : GoodAd c d view ch w0 s fut) (hm : fut.length % d.per w0.align = 0) :
    ∃ s', restartAd s = some s' ∧ GoodAd c d view ch w0 s' xs := by
  obtain ⟨h1, h2⟩ := good_boundary I h hm
  unfold restartAd
  rw [restart_same h.1 hp hr]
  refine ⟨_, rfl, good_start hw _ rfl rfl h1 h2 ?_⟩
  obtain ⟨-, gs, bs, tail, h⟩ := h
  exact h.len

end DrWav
end Verif
