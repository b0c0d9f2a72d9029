import Verif.Proof.DrWavRead
/-!
# Lemmas on opening arbitrary files
-/
namespace Verif
namespace DrWav

theorem seekFuel_true (k : Nat) (f : File) (o : Nat) (hk : o ≤ k) (h : (seekFuel k f o).1 = true) :
    (seekFuel k f o).2 = { f with pos := f.pos + o } := by
  induction k generalizing f o with
  | zero =>
    have : o = 0 := by omega
    subst this; rfl
  | succ k ih =>
    rw [seekFuel] at h ⊢
    by_cases h0 : o = 0
    · rw [if_pos h0, h0]; rfl
    rw [if_neg h0] at h ⊢
    have hi := intMax_pos
    by_cases hb : intMax < o
    · rw [if_pos hb] at h ⊢
      cases e : fseekCur f intMax with
      | none => rw [e] at h; exact absurd h (by simp)
      | some f' =>
        rw [e] at h
        simp only at h ⊢
        rw [ih f' (o - intMax) (by omega) h, fseekCur_bytes e, fseekCur_pos e]
        simp only [File.mk.injEq, true_and]
        omega
    · rw [if_neg hb] at h ⊢
      cases e : fseekCur f o with
      | none => rw [e] at h; exact absurd h (by simp)
      | some f' =>
        have := fseekCur_bytes e
        have := fseekCur_pos e
        obtain ⟨b, p⟩ := f'
        simp_all

theorem fseekCur_none {f : File} {o : Nat} (h : fseekCur f o = none) : 2 ^ 63 ≤ f.pos + o := by
  by_contra hn
  rw [fseekCur_ok f o (by omega)] at h
  exact absurd h (by simp)

theorem seekFuel_false (k : Nat) (f : File) (o : Nat) (h : (seekFuel k f o).1 = false) : 2 ^ 63 ≤ (seekFuel k f o).2.pos + intMax := by
  induction k generalizing f o with
  | zero => exact absurd h (by simp [seekFuel])
  | succ k ih =>
    rw [seekFuel] at h ⊢
    by_cases h0 : o = 0
    · rw [if_pos h0] at h; exact absurd h (by simp)
    rw [if_neg h0] at h ⊢
    by_cases hb : intMax < o
    · rw [if_pos hb] at h ⊢
      cases e : fseekCur f intMax with
      | none => exact fseekCur_none e
      | some f' =>
        rw [e] at h
        exact ih f' (o - intMax) h
    · rw [if_neg hb] at h ⊢
      cases e : fseekCur f o with
      | none => have := fseekCur_none e; simp only; omega
      | some f' => rw [e] at h; exact absurd h (by simp)

/-- The outcome of seeking forward: it went to the right place, or far away from every file. -/
theorem seekForward_cases (f : File) (o : Nat) :
    ((seekForward f o).1 = true ∧ (seekForward f o).2 = { f with pos := f.pos + o }) ∨
    ((seekForward f o).1 = false ∧ 2 ^ 63 ≤ (seekForward f o).2.pos + intMax) := by
  cases h : (seekForward f o).1 with
  | true => exact Or.inl ⟨rfl, seekFuel_true o f o (Nat.le_refl _) h⟩
  | false => exact Or.inr ⟨rfl, seekFuel_false o f o h⟩

/-- The running count and the position agree modulo 2^32. -/
def Agree (f : File) (r : Nat) : Prop := (f.pos : Int) % 4294967296 = (r : Int) % 4294967296

theorem readN_none_of_far {f : File} {n : Nat} (hn : 0 < n) (h : f.bytes.length ≤ f.pos) : readN f n = none := by
  unfold readN fread
  simp only
  rw [List.drop_eq_nil_of_le h]
  simp
  omega

theorem readChunkHeader_data {f f' : File} {h : ChunkHeader} (e : readChunkHeader f = some (h, f')) :
    h.id = (f.bytes.drop f.pos).take 4 ∧ ∃ sz, sz = (f.bytes.drop (f.pos + 4)).take 4 ∧ sz.length = 4 ∧ h.size = leNat sz := by
  unfold readChunkHeader at e
  cases e1 : readN f 4 with
  | none => rw [e1] at e; exact absurd e (by simp)
  | some p =>
    obtain ⟨id, f1⟩ := p
    rw [e1] at e
    simp only [Option.bind_eq_bind, Option.bind_some] at e
    cases e2 : readN f1 4 with
    | none => rw [e2] at e; exact absurd e (by simp)
    | some p =>
      obtain ⟨sz, f2⟩ := p
      rw [e2] at e
      simp only [Option.bind_some, pure, Option.some.injEq, Prod.mk.injEq] at e
      obtain ⟨rfl, rfl⟩ := e
      obtain ⟨a1, a2, a3, a4⟩ := readN_spec e1
      obtain ⟨b1, b2, b3, b4⟩ := readN_spec e2
      rw [a1, a2] at b3
      exact ⟨a3, sz, b3, b4, rfl⟩

theorem findFmt_spec {f f' : File} {r r' : Nat} {h : ChunkHeader} (e : findFmt f r = some (h, f', r')) (ha : Agree f r) :
    f'.bytes = f.bytes ∧ Agree f' r' := by
  induction hn : f.bytes.length - f.pos using Nat.strong_induction_on generalizing f r with
  | _ n ih =>
    rw [findFmt_eq] at e
    cases e1 : readChunkHeader f with
    | none => rw [e1] at e; exact absurd e (by simp)
    | some p =>
      obtain ⟨h1, f1⟩ := p
      rw [e1] at e
      simp only [Option.bind_some] at e
      obtain ⟨s1, s2, s3⟩ := readChunkHeader_spec e1
      split at e
      · simp only [Option.some.injEq, Prod.mk.injEq] at e
        obtain ⟨-, rfl, rfl⟩ := e
        refine ⟨s1, ?_⟩
        unfold Agree at *
        rw [s2]; push_cast; omega
      · rcases seekForward_cases f1 (h1.size + h1.padding) with ⟨t1, t2⟩ | ⟨t1, t2⟩
        · rw [t1, t2] at e
          simp only [if_true] at e
          have := ih (f.bytes.length - (f1.pos + (h1.size + h1.padding))) (by omega) e (by unfold Agree at *; simp only; push_cast; omega)
            (by simp only; rw [s1])
          exact ⟨this.1.trans s1, this.2⟩
        · rw [t1] at e
          exact absurd e (by simp)

theorem fseekCur_int {f f' : File} {o : Int} (h : fseekCur f o = some f') : f'.bytes = f.bytes ∧ (f'.pos : Int) = f.pos + o := by
  unfold fseekCur at h
  split at h
  · rename_i hc
    rw [← Option.some.inj h]
    refine ⟨rfl, ?_⟩
    show ((((f.pos : Int) + o).toNat : ℕ) : Int) = _
    exact Int.toNat_of_nonneg hc.1
  · exact absurd h (by simp)

theorem u64_mod (x : Int) : ((u64 x : ℕ) : Int) % 4294967296 = x % 4294967296 := by
  unfold u64
  rw [Int.toNat_of_nonneg (Int.emod_nonneg _ (by norm_num))]
  exact Int.emod_emod_of_dvd _ ⟨4294967296, by norm_num⟩

theorem toI32_mod (x : Nat) : toI32 x % 4294967296 = (x : Int) % 4294967296 := by
  unfold toI32
  split <;> omega

theorem toI32_of_agree {f : File} {r : Nat} (h : Agree f r) (hp : f.pos < 2147483648) : toI32 r = f.pos := by
  unfold Agree at h
  unfold toI32
  split <;> omega

theorem readFmtExt_spec {h : ChunkHeader} {tag r r' sub : Nat} {f f' : File} (e : readFmtExt h tag f r = some (sub, f', r')) (ha : Agree f r) :
    f'.bytes = f.bytes ∧ Agree f' r' := by
  unfold readFmtExt at e
  split at e
  · simp only [pure, Option.some.injEq, Prod.mk.injEq] at e
    obtain ⟨-, rfl, rfl⟩ := e
    exact ⟨rfl, ha⟩
  cases e1 : readN f 2 with
  | none => rw [e1] at e; exact absurd e (by simp)
  | some p =>
    obtain ⟨cb, f1⟩ := p
    rw [e1] at e
    simp only [Option.bind_eq_bind, Option.bind_some] at e
    obtain ⟨s1, s2, -, -⟩ := readN_spec e1
    generalize leNat cb = ext at e
    -- the middle part moves by `ext`
    have key : ∀ (m : Option (ℕ × File)), m = (if ext = 0 then some (0, f1) else if tag = 0xFFFE then if ext ≠ 22 then none
        else (readN f1 22).bind fun q => some (leNat ((q.1.drop 6).take 2), q.2)
        else (fseekCur f1 ext).bind fun q => some (0, q)) → ∀ s2 f2, m = some (s2, f2) → f2.bytes = f1.bytes ∧ f2.pos = f1.pos + ext := by
      rintro m rfl s2 f2 h2
      split at h2
      · rename_i h0
        simp only [Option.some.injEq, Prod.mk.injEq] at h2
        rw [← h2.2, h0]; exact ⟨rfl, rfl⟩
      · split at h2
        · split at h2
          · exact absurd h2 (by simp)
          · rename_i hx
            have hx : ext = 22 := by simpa using hx
            cases e3 : readN f1 22 with
            | none => rw [e3] at h2; exact absurd h2 (by simp)
            | some q =>
              obtain ⟨b, f3⟩ := q
              rw [e3] at h2
              simp only [Option.bind_some, Option.some.injEq, Prod.mk.injEq] at h2
              obtain ⟨u1, u2, -⟩ := readN_spec e3
              rw [← h2.2, hx]; exact ⟨u1, u2⟩
        · cases e3 : fseekCur f1 ext with
          | none => rw [e3] at h2; exact absurd h2 (by simp)
          | some q =>
            rw [e3] at h2
            simp only [Option.bind_some, Option.some.injEq, Prod.mk.injEq] at h2
            rw [← h2.2]; exact ⟨fseekCur_bytes e3, fseekCur_pos e3⟩
    have key' := key _ rfl
    generalize hm : (if ext = 0 then some (0, f1) else if tag = 0xFFFE then if ext ≠ 22 then none
        else (readN f1 22).bind fun q => some (leNat ((q.1.drop 6).take 2), q.2)
        else (fseekCur f1 ext).bind fun q => some (0, q)) = m at key' e
    cases m with
    | none => exact absurd e (by simp)
    | some q =>
      obtain ⟨s3, f2⟩ := q
      simp only [Option.bind_some] at e
      obtain ⟨v1, v2⟩ := key' s3 f2 rfl
      generalize hleft : u64 ((h.size : Int) - (18 + ext : ℕ)) = left at e
      cases e4 : fseekCur f2 (toI32 left) with
      | none => rw [e4] at e; exact absurd e (by simp)
      | some f3 =>
        rw [e4] at e
        simp only [Option.bind_some, pure, Option.some.injEq, Prod.mk.injEq] at e
        obtain ⟨-, rfl, rfl⟩ := e
        obtain ⟨w1, w2⟩ := fseekCur_int e4
        refine ⟨w1.trans (v1.trans s1), ?_⟩
        unfold Agree at *
        rw [u64_mod, w2, v2, s2]
        have := toI32_mod left
        push_cast
        omega

theorem readFmt_spec {fmt : Fmt} {r r' : Nat} {f f' : File} (e : readFmt f r = some (fmt, f', r')) (ha : Agree f r) :
    f'.bytes = f.bytes ∧ Agree f' r' ∧ fmt.channels < 65536 ∧ fmt.align < 65536 ∧ fmt.rate < 4294967296 := by
  unfold readFmt at e
  cases e1 : findFmt f r with
  | none => rw [e1] at e; exact absurd e (by simp)
  | some p =>
    obtain ⟨h, f1, r1⟩ := p
    rw [e1] at e
    simp only [Option.bind_eq_bind, Option.bind_some] at e
    obtain ⟨s1, s2⟩ := findFmt_spec e1 ha
    cases e2 : readN f1 16 with
    | none => rw [e2] at e; exact absurd e (by simp)
    | some q =>
      obtain ⟨b, f2⟩ := q
      rw [e2] at e
      simp only [Option.bind_some] at e
      obtain ⟨t1, t2, -, t4⟩ := readN_spec e2
      cases e3 : readFmtExt h (leNat (b.take 2)) f2 (r1 + 16) with
      | none => rw [e3] at e; exact absurd e (by simp)
      | some q3 =>
        obtain ⟨sub, f3, r3⟩ := q3
        rw [e3] at e
        simp only [Option.bind_some] at e
        obtain ⟨u1, u2⟩ := readFmtExt_spec e3 (by unfold Agree at *; rw [t2]; push_cast; omega)
        have hx : ∀ (m : Option File), m = (if 0 < h.padding then fseekCur f3 h.padding else some f3) → ∀ f4, m = some f4 →
            f4.bytes = f3.bytes ∧ f4.pos = f3.pos + h.padding := by
          rintro m rfl f4 h4
          split at h4
          · exact ⟨fseekCur_bytes h4, fseekCur_pos h4⟩
          · rw [← Option.some.inj h4]; exact ⟨rfl, by omega⟩
        have hx' := hx _ rfl
        generalize (if 0 < h.padding then fseekCur f3 h.padding else some f3) = m at e hx'
        cases m with
        | none => exact absurd e (by simp)
        | some f4 =>
          simp only [Option.bind_some, pure, Option.some.injEq, Prod.mk.injEq] at e
          obtain ⟨rfl, rfl, rfl⟩ := e
          obtain ⟨v1, v2⟩ := hx' f4 rfl
          have len2 : ∀ n m, leNat ((b.drop n).take m) < 256 ^ m := by
            intro n m
            refine lt_of_lt_of_le (leNat_lt _) (Nat.pow_le_pow_right (by omega) ?_)
            rw [List.length_take]; omega
          refine ⟨v1.trans (u1.trans (t1.trans s1)), ?_, ?_, ?_, ?_⟩
          · unfold Agree at *; rw [v2]; push_cast; omega
          · have := len2 2 2; norm_num at this; exact this
          · have := len2 12 2; norm_num at this; exact this
          · have := len2 4 4; norm_num at this; exact this

theorem skipFact_agree {h : ChunkHeader} {f f' : File} {r r' d : Nat} (e : skipFact h f r = some (d, f', r')) (ha : Agree f r) : Agree f' r' := by
  unfold skipFact at e
  split at e
  · cases e1 : readN f 4 with
    | none => rw [e1] at e; exact absurd e (by simp)
    | some p =>
      obtain ⟨b, f1⟩ := p
      rw [e1] at e
      simp only [Option.bind_eq_bind, Option.bind_some, Option.some.injEq, Prod.mk.injEq] at e
      obtain ⟨-, rfl, rfl⟩ := e
      obtain ⟨a1, a2, -⟩ := readN_spec e1
      unfold Agree at *; rw [a2]; push_cast; omega
  · simp only [Option.some.injEq, Prod.mk.injEq] at e
    obtain ⟨-, rfl, rfl⟩ := e
    exact ha

theorem split_at {l id sz : List Byte} {p : Nat} (h1 : id = (l.drop p).take 4) (h2 : sz = (l.drop (p + 4)).take 4) :
    l = l.take p ++ (id ++ (sz ++ l.drop (p + 8))) := by
  have e1 : l.drop (p + 4) = sz ++ l.drop (p + 8) := by
    have : l.drop (p + 8) = (l.drop (p + 4)).drop 4 := by rw [List.drop_drop]
    rw [h2, this, List.take_append_drop]
  rw [← e1, h1, ← List.drop_drop, List.take_append_drop, List.take_append_drop]

theorem findData_spec {f f' : File} {r r' d : Nat} (e : findData f r = some (d, f', r')) :
    f'.bytes = f.bytes ∧ d < 4294967296 ∧
      (∃ a b, f.bytes = a ++ (fourcc "data" ++ (le 4 d ++ b)) ∧ f'.pos = a.length + 8) ∧
      (f.bytes.length < 2147483648 → Agree f r → Agree f' r') := by
  induction hn : f.bytes.length - f.pos using Nat.strong_induction_on generalizing f r with
  | _ n ih =>
    rw [findData_eq] at e
    cases e1 : readChunkHeader f with
    | none => rw [e1] at e; exact absurd e (by simp)
    | some p =>
      obtain ⟨h1, f1⟩ := p
      rw [e1] at e
      simp only [Option.bind_some] at e
      obtain ⟨s1, s2, s3⟩ := readChunkHeader_spec e1
      obtain ⟨i1, sz, i2, i3, i4⟩ := readChunkHeader_data e1
      split at e
      · rename_i hid
        simp only [Option.some.injEq, Prod.mk.injEq] at e
        obtain ⟨rfl, rfl, rfl⟩ := e
        have hlt : leNat sz < 4294967296 := by have := leNat_lt sz; rw [i3] at this; exact this
        refine ⟨s1, by rw [i4]; exact hlt, ⟨f.bytes.take f.pos, f.bytes.drop (f.pos + 8), ?_, ?_⟩, ?_⟩
        · have := split_at i1 i2
          rw [hid] at this
          have hle : le 4 h1.size = sz := by
            rw [i4, ← i3]; exact le_leNat sz
          rw [hle]; exact this
        · rw [s2, List.length_take]; omega
        · intro _ ha
          unfold Agree at *; rw [s2]; push_cast; omega
      · cases e2 : skipFact h1 f1 (r + 8) with
        | none => rw [e2] at e; exact absurd e (by simp)
        | some q =>
          obtain ⟨d2, f2, r2⟩ := q
          rw [e2] at e
          simp only [Option.bind_some] at e
          obtain ⟨t1, t2⟩ := skipFact_spec e2
          obtain ⟨m1, m2⟩ := seekForward_mono f2 d2
          have hb : (seekForward f2 d2).2.bytes = f.bytes := m1.trans (t1.trans s1)
          obtain ⟨j1, j2, j3, j4⟩ := ih (f.bytes.length - (seekForward f2 d2).2.pos) (by omega) e (by rw [hb])
          rw [hb] at j1 j3 j4
          refine ⟨j1, j2, j3, fun hl ha => j4 hl ?_⟩
          have hag := skipFact_agree e2 (by unfold Agree at *; rw [s2]; push_cast; omega)
          rcases seekForward_cases f2 d2 with ⟨-, w2⟩ | ⟨-, w2⟩
          · rw [w2]
            unfold Agree at *
            rw [u64_mod]
            simp only
            push_cast
            omega
          · exfalso
            have hk : (2147483648 : ℕ) + 2147483648 < 2 ^ 63 := by norm_num
            rw [intMax_eq] at w2
            rw [findData_eq] at e
            have : readChunkHeader (seekForward f2 d2).2 = none := by
              unfold readChunkHeader
              rw [readN_none_of_far (by omega) (by rw [hb]; omega)]
              rfl
            rw [this] at e
            exact absurd e (by simp)

/-- What is known of a file that could be opened. -/
theorem init_spec {bytes : List Byte} {w : Wav} (e : init bytes = some w) :
    w.file.bytes = bytes ∧ 0 < w.channels ∧ w.channels < 65536 ∧ 0 < w.rate ∧ w.rate < 4294967296 ∧ w.dataSize < 4294967296 ∧
    w.remaining = w.dataSize ∧ (compressed w.tag = false → 0 < w.bps ∧ w.bps < 65536 ∧ w.total = w.dataSize / w.bps) ∧
    (compressed w.tag = true → w.bps = 0 ∧ w.channels ≤ 2 ∧ w.channels ≤ w.align ∧ w.align < 65536 ∧
      w.total = totalCount w.tag w.dataSize w.align (w.align / w.channels) w.channels) ∧
    (∃ a b, bytes = a ++ (fourcc "data" ++ (le 4 w.dataSize ++ b)) ∧ w.file.pos = a.length + 8) ∧
    (bytes.length < 2147483648 → toI32 w.dataPos = w.file.pos) := by
  unfold init at e
  simp only at e
  cases e1 : readN ⟨bytes, 0⟩ 4 with
  | none => rw [e1] at e; exact absurd e (by simp)
  | some p =>
  obtain ⟨b1, f1⟩ := p
  rw [e1] at e
  simp only [Option.bind_eq_bind, Option.bind_some, pure] at e
  obtain ⟨s1, s2, -⟩ := readN_spec e1
  by_cases hq0 : b1 ≠ fourcc "RIFF"
  · rw [if_pos hq0] at e; exact absurd e (by simp)
  rw [if_neg hq0] at e
  cases e2 : readN f1 4 with
  | none => rw [e2] at e; exact absurd e (by simp)
  | some p =>
  obtain ⟨b2, f2⟩ := p
  rw [e2] at e
  simp only [Option.bind_some] at e
  obtain ⟨t1, t2, -⟩ := readN_spec e2
  by_cases hq1 : leNat b2 < 36
  · rw [if_pos hq1] at e; exact absurd e (by simp)
  rw [if_neg hq1] at e
  cases e3 : readN f2 4 with
  | none => rw [e3] at e; exact absurd e (by simp)
  | some p =>
  obtain ⟨b3, f3⟩ := p
  rw [e3] at e
  simp only [Option.bind_some] at e
  obtain ⟨u1, u2, -⟩ := readN_spec e3
  by_cases hq2 : b3 ≠ fourcc "WAVE"
  · rw [if_pos hq2] at e; exact absurd e (by simp)
  rw [if_neg hq2] at e
  cases e4 : readFmt f3 12 with
  | none => rw [e4] at e; exact absurd e (by simp)
  | some p =>
  obtain ⟨fmt, f4, r4⟩ := p
  rw [e4] at e
  simp only [Option.bind_some] at e
  simp only at s2 s1
  obtain ⟨v1, v2, v3, v4, v5⟩ := readFmt_spec e4 (by unfold Agree; rw [u2, t2, s2])
  by_cases hz : fmt.rate = 0 ∨ fmt.channels = 0 ∨ fmt.bits = 0 ∨ fmt.align = 0
  · rw [if_pos hz] at e; exact absurd e (by simp)
  rw [if_neg hz] at e
  simp only [not_or] at hz
  cases e5 : findData f4 r4 with
  | none => rw [e5] at e; exact absurd e (by simp)
  | some p =>
  obtain ⟨d, f5, r5⟩ := p
  rw [e5] at e
  simp only [Option.bind_some] at e
  obtain ⟨x1, x2, x3, x4⟩ := findData_spec e5
  have hb4 : f4.bytes = bytes := v1.trans (u1.trans (t1.trans s1))
  rw [hb4] at x1 x3 x4
  by_cases hbps : fmt.align / fmt.channels = 0
  · rw [if_pos hbps] at e; exact absurd e (by simp)
  rw [if_neg hbps] at e
  generalize (if fmt.tag = 65534 then fmt.sub else fmt.tag) = tag at e
  by_cases hq : compressed tag = true ∧ 2 < fmt.channels
  · rw [if_pos hq] at e; exact absurd e (by simp)
  rw [if_neg hq] at e
  simp only [Option.bind_some, Option.some.injEq] at e
  subst e
  refine ⟨x1, Nat.pos_of_ne_zero hz.2.1, v3, Nat.pos_of_ne_zero hz.1, v5, x2, rfl, ?_, ?_, x3, ?_⟩
  · intro hc
    simp only at hc ⊢
    rw [hc]
    simp only [Bool.false_eq_true, if_false]
    refine ⟨Nat.pos_of_ne_zero hbps, lt_of_le_of_lt (Nat.div_le_self _ _) v4, ?_⟩
    unfold totalCount
    rw [if_neg, if_neg]
    · intro h; rw [h] at hc; exact absurd hc (by decide)
    · intro h; rw [h] at hc; exact absurd hc (by decide)
  · intro hc
    simp only at hc ⊢
    rw [hc]
    refine ⟨rfl, by have := not_and.1 hq hc; omega, ?_, v4, trivial⟩
    by_contra hlt
    exact hbps (Nat.div_eq_of_lt (by omega))
  · intro hl
    obtain ⟨a, b, hab, hpos⟩ := x3
    have : f5.pos ≤ bytes.length := by
      rw [hpos, hab]; simp; omega
    have hp : f5.pos < 2147483648 := by omega
    exact toI32_of_agree (x4 hl v2) hp

end DrWav
end Verif
