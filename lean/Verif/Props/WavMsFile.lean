import Verif.Props.WavMs
/-!
# C96: Microsoft ADPCM files
-/
namespace Verif
open DrWav WavSpec AdSpec MsSpec

namespace DrWav

/-- What holds of every state of a channel. -/
def MsCh.Ranged (s : MsCh) : Prop := -32768 ≤ s.delta ∧ (-32768 ≤ s.old ∧ s.old ≤ 32767) ∧ (-32768 ≤ s.new ∧ s.new ≤ 32767)

theorem MsCh.Ranged.next {s : MsCh} (h : s.Ranged) (n : Nat) : (next s n).Ranged := by
  refine ⟨?_, h.2.2, ms_new_range s n⟩
  unfold MsSpec.next; simp only; omega

theorem MsCh.Ranged.ok {s : MsCh} (h : s.Ranged) {n : Nat} {ns : List Nat} (hf : Fits s (n :: ns)) : s.Ok :=
  ⟨hf.1, hf.2.1, h.1, h.2.1, h.2.2⟩

theorem list1 {g : List Byte} (h : g.length = 1) : ∃ x, g = [x] := by
  match g, h with
  | [x], _ => exact ⟨x, rfl⟩

theorem ms_mono_body {t : MsCh} (ht : t.Ranged) (gs : List (List Byte)) (hg : ∀ g ∈ gs, g.length = 1) (hf : Fits t (both gs.flatten)) :
    msMono.body t gs = some (samples t (both gs.flatten)) := by
  induction gs generalizing t with
  | nil => rfl
  | cons g gs ih =>
    obtain ⟨x, rfl⟩ := list1 (hg g (by simp))
    have eb : both ([x] :: gs).flatten = (x.toNat / 16) :: (x.toNat % 16) :: both gs.flatten := by
      unfold both; simp
    rw [eb] at hf ⊢
    have h1 := ht.ok hf
    have h2 := (ht.next _).ok hf.2.2
    rw [Dec.body]
    have e : msMono.grp t [x] = some (next (next t (x.toNat / 16)) (x.toNat % 16), [(next t (x.toNat / 16)).new, (next (next t (x.toNat / 16)) (x.toNat % 16)).new]) :=
      if_pos ⟨h1, h2, rfl⟩
    rw [e, Option.bind_some, ih ((ht.next _).next _) (fun g' hg' => hg g' (by simp [hg'])) hf.2.2.2.2]
    rfl

theorem ms_stereo_body {t : Two MsCh} (hl : t.left.Ranged) (hr : t.right.Ranged) (gs : List (List Byte)) (hg : ∀ g ∈ gs, g.length = 1)
    (hfl : Fits t.left (high gs.flatten)) (hfr : Fits t.right (low gs.flatten)) :
    msStereo.body t gs = some (interleave (samples t.left (high gs.flatten)) (samples t.right (low gs.flatten))) := by
  induction gs generalizing t with
  | nil => rfl
  | cons g gs ih =>
    obtain ⟨x, rfl⟩ := list1 (hg g (by simp))
    have eh : high ([x] :: gs).flatten = (x.toNat / 16) :: high gs.flatten := by unfold high; simp
    have el : low ([x] :: gs).flatten = (x.toNat % 16) :: low gs.flatten := by unfold low; simp
    rw [eh] at hfl ⊢
    rw [el] at hfr ⊢
    rw [Dec.body]
    have e : msStereo.grp t [x] = some (⟨next t.left (x.toNat / 16), next t.right (x.toNat % 16)⟩, [(next t.left (x.toNat / 16)).new, (next t.right (x.toNat % 16)).new]) :=
      if_pos ⟨hl.ok hfl, hr.ok hfr, rfl⟩
    rw [e, Option.bind_some, ih (hl.next _) (hr.next _) (fun g' hg' => hg g' (by simp [hg'])) hfl.2.2 hfr.2.2]
    rfl

theorem getD_take (b : List Byte) {n i : Nat} (h : i < n) : (b.take n).getD i 0 = b.getD i 0 := by
  simp only [List.getD, List.getElem?_take]
  rw [if_pos h]

theorem int16_take (b : List Byte) {n i : Nat} (h : i + 1 < n) : int16 (b.take n) i = int16 b i := by
  unfold int16
  rw [getD_take b h, getD_take b (by omega)]

theorem ms_mono_block {b : List Byte} (hv : ValidBlock 1 b) : msMono.block b = some (mono b) := by
  obtain ⟨g1, g2, -⟩ := groupsOf_flatten msMono b (Nat.one_dvd _)
  have g1 : (msMono.groupsOf b).flatten = b.drop 7 := g1
  have hv : Fits (start b) (both (b.drop 7)) := hv
  unfold Dec.block
  have e : msMono.head (b.take msMono.hl) = (start b, [(start b).old, (start b).new]) := by
    show (start (b.take 7), [(start (b.take 7)).old, (start (b.take 7)).new]) = _
    unfold start
    rw [getD_take b (by omega), int16_take b (by omega), int16_take b (by omega), int16_take b (by omega)]
  rw [e]
  simp only
  rw [ms_mono_body ⟨(int16_range b 1).1, int16_range b 5, int16_range b 3⟩ _ g2 (by rw [g1]; exact hv), g1]
  rfl

theorem ms_stereo_block {b : List Byte} (hv : ValidBlock 2 b) : msStereo.block b = some (stereo b) := by
  obtain ⟨g1, g2, -⟩ := groupsOf_flatten msStereo b (Nat.one_dvd _)
  have g1 : (msStereo.groupsOf b).flatten = b.drop 14 := g1
  have hv : Fits (startLeft b) (high (b.drop 14)) ∧ Fits (startRight b) (low (b.drop 14)) := hv
  unfold Dec.block
  have e : msStereo.head (b.take msStereo.hl) = (⟨startLeft b, startRight b⟩, [(startLeft b).old, (startRight b).old, (startLeft b).new, (startRight b).new]) := by
    show (Two.mk (startLeft (b.take 14)) (startRight (b.take 14)),
      [(startLeft (b.take 14)).old, (startRight (b.take 14)).old, (startLeft (b.take 14)).new, (startRight (b.take 14)).new]) = _
    unfold startLeft startRight
    rw [getD_take b (by omega), getD_take b (by omega), int16_take b (by omega), int16_take b (by omega), int16_take b (by omega), int16_take b (by omega),
      int16_take b (by omega), int16_take b (by omega)]
  rw [e]
  simp only
  rw [ms_stereo_body ⟨(int16_range b 2).1, int16_range b 10, int16_range b 6⟩ ⟨(int16_range b 4).1, int16_range b 12, int16_range b 8⟩ _ g2 (by rw [g1]; exact hv.1)
    (by rw [g1]; exact hv.2), g1]
  rfl

theorem ms_total {dataSize align bps ch : Nat} (h1 : dataSize < 4294967296) (h2 : 6 * ch ≤ align) (h3 : align < 65536) :
    totalCount 2 dataSize align bps ch = dataSize / align * perBlock ch align := by
  unfold totalCount perBlock
  rw [if_pos rfl]
  have e : (((align : Int) - 6 * (ch : Int)) % 2 ^ 64) = ((align - 6 * ch : Nat) : Int) := by
    rw [Int.emod_eq_of_lt (by omega) (by omega)]
    omega
  rw [e]
  have hq : dataSize / align ≤ dataSize := Nat.div_le_self _ _
  have hb : dataSize / align * (2 * (align - 6 * ch)) ≤ 4294967296 * 131072 := Nat.mul_le_mul (by omega) (by omega)
  unfold u64
  have e2 : (((dataSize / align : Nat) : Int) * ((align - 6 * ch : Nat) : Int) * 2) = ((dataSize / align * (2 * (align - 6 * ch)) : Nat) : Int) := by push_cast; ring
  rw [e2]
  generalize dataSize / align * (2 * (align - 6 * ch)) = z at *
  omega

/-- Well-formed Microsoft ADPCM files. -/
theorem ms_wellFormed {bytes : List Byte} {w : Wav} (e : init bytes = some w) (ht : w.tag = 2) (data : List Byte) (hd : DataChunk bytes w data)
    (hdl : data.length = w.dataSize) (hal : 7 * w.channels ≤ w.align) (hv : ∀ b ∈ samplesOf w.align data, ValidBlock w.channels b) :
    (w.channels = 1 ∧ WellFormed msMono 1 w (decode w.channels w.align data) ∧ msMono.per w.align = perBlock w.channels w.align) ∨
    (w.channels = 2 ∧ WellFormed msStereo 2 w (decode w.channels w.align data) ∧ msStereo.per w.align = perBlock w.channels w.align) := by
  obtain ⟨-, hc0, -, -, -, h6, -, -, h9, -⟩ := init_spec e
  obtain ⟨-, hc2, -, i4, i5⟩ := h9 (by rw [ht]; rfl)
  obtain ⟨rest, hdr⟩ := dataChunk_drop hd
  obtain ⟨tail, hfl⟩ := samplesOf_flatten w.align data
  rw [ht, ms_total h6 (by omega) i4] at i5
  have hap : 0 < w.align := by omega
  have hcnt := samplesOf_count hap data
  rw [hdl] at hcnt
  have hbl : ∀ b ∈ samplesOf w.align data, b.length = w.align := fun b hb => samplesOf_mem hb
  have hdrop : w.file.bytes.drop w.file.pos = (samplesOf w.align data).flatten ++ (tail ++ rest) := by
    rw [hdr]
    conv_lhs => rw [hfl]
    rw [List.append_assoc]
  rcases (by omega : w.channels = 1 ∨ w.channels = 2) with h1 | h2
  · left
    rw [h1] at hal i5 hv ⊢
    have hper : msMono.per w.align = perBlock 1 w.align := by
      show 2 + 2 * ((w.align - 7) / 1) = 2 * (w.align - 6 * 1)
      omega
    have hb := dec_blocks_flatMap (d := msMono) (f := mono) (samplesOf w.align data) fun b hb => ms_mono_block (hv b hb)
    refine ⟨rfl, ⟨h1, by show 7 ≤ w.align; omega, i4, Nat.one_dvd _, ⟨_, _, hdrop, hbl, hb⟩, ?_⟩, hper⟩
    show ((samplesOf w.align data).flatMap mono).length = _
    rw [dec_blocks_length ms_mono_implements (Nat.one_dvd _) _ hbl _ hb, hcnt, i5, hper, Nat.mul_comm]
  · right
    rw [h2] at hal i5 hv ⊢
    have hper : msStereo.per w.align = perBlock 2 w.align := by
      show 4 + 2 * ((w.align - 14) / 1) = 2 * (w.align - 6 * 2)
      omega
    have hb := dec_blocks_flatMap (d := msStereo) (f := stereo) (samplesOf w.align data) fun b hb => ms_stereo_block (hv b hb)
    refine ⟨rfl, ⟨h2, by show 14 ≤ w.align; omega, i4, Nat.one_dvd _, ⟨_, _, hdrop, hbl, hb⟩, ?_⟩, hper⟩
    show ((samplesOf w.align data).flatMap stereo).length = _
    rw [dec_blocks_length ms_stereo_implements (Nat.one_dvd _) _ hbl _ hb, hcnt, i5, hper, Nat.mul_comm]

theorem dec_blocks_snoc {τ : Type} {d : Dec τ} {f : List Byte → List Int} (bs : List (List Byte)) (b : List Byte) (h : ∀ b ∈ bs, d.block b = some (f b)) (hb : d.block b = some (f b)) :
    d.blocks (bs ++ [b]) = some (bs.flatMap f ++ f b) := by
  rw [dec_blocks_flatMap (f := f) (bs ++ [b])]
  · simp
  · intro b' hb'
    rcases List.mem_append.1 hb' with h1 | h1
    · exact h b' h1
    · rw [List.mem_singleton.1 h1]; exact hb

theorem Shape.snoc {σ τ : Type} {c : Codec σ} {d : Dec τ} {ch align miss : Nat} {bs : List (List Byte)} {b tail : List Byte} (h : ∀ b ∈ bs, b.length = align)
    (hs : Shape c d ch align miss [b] tail) : Shape c d ch align miss (bs ++ [b]) tail := by
  induction bs with
  | nil => exact hs
  | cons x bs ih => exact .cons _ _ _ (h x (by simp)) (ih fun b' hb' => h b' (by simp [hb']))

/-- A reader that has just been opened on a file that may be cut off anywhere. -/
theorem open_any {σ τ : Type} {c : Codec σ} {d : Dec τ} {view : σ → τ} {ch : Nat} {bytes : List Byte} {w : Wav} (I : Implements c d view ch) (data : List Byte)
    (hd : DataChunk bytes w data) (hch : w.channels = ch) (hal : d.hl ≤ w.align) (hap : 0 < w.align) (hal' : w.align < 65536) (hgl : d.gl = 1) (S : ShortLoad c d ch)
    (f : List Byte → List Int) (hb : ∀ b ∈ samplesOf w.align data, d.block b = some (f b))
    (hrest : d.hl ≤ (MsSpec.rest w.align data).length → d.block (MsSpec.rest w.align data) = some (f (MsSpec.rest w.align data)))
    (ht : w.total = w.dataSize / w.align * d.per w.align)
    (s : Ad σ) (hw : s.w = w) (hcur : s.cur = 0) (hc : s.count = 0) (hr : s.rem = 0) (hl : s.cache.length = c.size) :
    ∃ miss, GoodCut c d view ch w s
      (((samplesOf w.align data).flatMap f ++ if d.hl ≤ (MsSpec.rest w.align data).length then f (MsSpec.rest w.align data) else []).take w.total) miss := by
  have hdvd : ∀ n, d.gl ∣ n := fun n => by rw [hgl]; exact Nat.one_dvd _
  obtain ⟨rest, hdr⟩ := dataChunk_drop hd
  obtain ⟨tail, hfl⟩ := samplesOf_flatten w.align data
  have hbl : ∀ b ∈ samplesOf w.align data, b.length = w.align := fun b hb => samplesOf_mem hb
  have hcnt := samplesOf_count hap data
  have hbs := dec_blocks_flatMap (samplesOf w.align data) hb
  have hlen := dec_blocks_length I (hdvd _) _ hbl _ hbs
  have htl := samplesOf_rest w.align hap data tail hfl
  have htail : MsSpec.rest w.align data = tail := by
    have h1 : (samplesOf w.align data).flatten.length = data.length / w.align * w.align := by
      have h2 := congrArg List.length hfl
      rw [List.length_append] at h2
      have h3 := Nat.div_add_mod data.length w.align
      have h4 := Nat.mul_comm w.align (data.length / w.align)
      omega
    unfold MsSpec.rest
    rw [← h1]
    have key : ∀ x : List Byte, data = x ++ tail → data.drop x.length = tail := by
      intro x hx
      rw [hx]
      exact List.drop_left
    exact key _ hfl
  rw [htail] at hrest ⊢
  have hle : data.length ≤ w.dataSize := by
    obtain ⟨a, b, -, rfl, -⟩ := hd
    exact List.length_take_le _ _
  have hdrop : w.file.bytes.drop w.file.pos = (samplesOf w.align data).flatten ++ (tail ++ rest) := by
    rw [hdr]
    conv_lhs => rw [hfl]
    rw [List.append_assoc]
  by_cases hcase : d.hl ≤ tail.length ∧ data.length / w.align < w.dataSize / w.align
  · obtain ⟨h1, h2⟩ := hcase
    rw [if_pos h1]
    have hne : data.length ≠ w.dataSize := by
      intro h
      rw [h] at h2
      omega
    have hnil := (dataChunk_cut hd hne).1
    rw [hdr] at hnil
    have hnil : rest = [] := by
      have h3 := congrArg List.length hnil
      rw [List.length_append] at h3
      exact List.eq_nil_of_length_eq_zero (by omega)
    have hbs' := dec_blocks_snoc _ tail hb (hrest h1)
    have hf : (f tail).length = d.per tail.length := by
      have h3 := dec_blocks_flatMap (d := d) (f := f) [tail] fun b hb => by rw [List.mem_singleton.1 hb]; exact hrest h1
      have h4 := dec_blocks_length I (align := tail.length) (hdvd _) [tail] (by simp) _ h3
      simpa using h4
    have htlt : tail.length < w.align := by rw [htl]; exact Nat.mod_lt _ hap
    have hperlt : d.per tail.length < d.per w.align := by
      unfold Dec.per
      rw [hgl, Nat.div_one, Nat.div_one]
      have := I.gn_pos
      have : d.gn * (tail.length - d.hl) < d.gn * (w.align - d.hl) := Nat.mul_lt_mul_of_pos_left (by omega) this
      omega
    have htot : ((samplesOf w.align data).flatMap f ++ f tail).length < w.total := by
      rw [List.length_append, hlen, hcnt, hf, ht]
      have h5 : (data.length / w.align + 1) * d.per w.align ≤ w.dataSize / w.align * d.per w.align := Nat.mul_le_mul_right _ h2
      rw [Nat.add_mul, Nat.one_mul, Nat.mul_comm] at h5
      omega
    rw [List.take_of_length_le (by omega)]
    refine ⟨w.total - ((samplesOf w.align data).flatMap f ++ f tail).length, good_start_cut (tail := []) hch hal hal' (hdvd _) (bs := samplesOf w.align data ++ [tail]) ?_ ?_ hbs' (by omega) s hw hcur hc hr hl⟩
    · rw [hdrop, hnil]; simp
    · exact Shape.snoc hbl (.cut _ _ h1 htlt (hdvd _) (by rw [hgl]; decide) (by omega) S)
  · have hlet : ((samplesOf w.align data).flatMap f).length ≤ w.total := by
      rw [hlen, hcnt, ht, Nat.mul_comm]
      exact Nat.mul_le_mul_right _ (Nat.div_le_div_right hle)
    have htake : ((samplesOf w.align data).flatMap f ++ if d.hl ≤ tail.length then f tail else []).take w.total = (samplesOf w.align data).flatMap f := by
      by_cases h1 : d.hl ≤ tail.length
      · have h2 : data.length / w.align = w.dataSize / w.align := by
          have := Nat.div_le_div_right (c := w.align) hle
          have h3 := not_and.1 hcase h1
          omega
        rw [List.take_append_of_le_length (by rw [hlen, hcnt, ht, h2, Nat.mul_comm]), List.take_of_length_le (by rw [hlen, hcnt, ht, h2, Nat.mul_comm])]
      · rw [if_neg h1, List.append_nil, List.take_of_length_le hlet]
    rw [htake]
    refine ⟨w.total - ((samplesOf w.align data).flatMap f).length, good_start_cut hch hal hal' (hdvd _) hdrop (.of_full hbl ?_) hbs (by omega) s hw hcur hc hr hl⟩
    intro hm
    have hne2 : data.length / w.align ≠ w.dataSize / w.align := by
      intro h
      rw [hlen, hcnt, ht, h, Nat.mul_comm] at hm
      omega
    have hne : data.length ≠ w.dataSize := fun h => hne2 (by rw [h])
    have hnil := (dataChunk_cut hd hne).1
    rw [hdr] at hnil
    have h3 := congrArg List.length hnil
    rw [List.length_append] at h3
    rw [List.length_append]
    have := Nat.div_le_div_right (c := w.align) hle
    have h4 : ¬ d.hl ≤ tail.length := fun h => hcase ⟨h, by omega⟩
    omega

theorem msOpen_good {d : Dec τ} {view : Two MsCh → τ} {ch : Nat} {w : Wav} {xs : List Int} (h : WellFormed d ch w xs) :
    GoodAd ms d view ch w (msOpen w) xs := good_start h _ rfl rfl rfl rfl (by simp [msOpen, ms])

theorem ms_progress : Progress ms where
  header s s' hc h := by
    have h : msHeader s = .ok (true, s') := h
    unfold msHeader at h
    split at h
    all_goals
      simp only at h
      split at h
      · injection h with h; injection h with h _; exact absurd h (by simp)
      · injection h with h; injection h with _ h
        rw [← h]
        exact ⟨by simp, hc⟩
  load s s' hc h := by
    have h : msLoad s = .ok (true, s') := h
    unfold msLoad at h
    simp only [bind, Except.bind] at h
    split at h
    · injection h with h; injection h with h _; exact absurd h (by simp)
    split at h
    all_goals
      split at h
      · exact absurd h (by simp)
      split at h
      · exact absurd h (by simp)
      injection h with h; injection h with _ h
      rw [← h]
      exact ⟨by simp, hc⟩

end DrWav

/-! ## The theorems -/

/-- **C96.** Every sequence of reads from a mono or stereo Microsoft ADPCM file with complete data delivers the samples that the format prescribes, in order, each once, however the
reads are cut; when they are used up, no more. -/
theorem C96_reads (bytes : List Byte) (w : Wav) (e : init bytes = some w) (ht : w.tag = 2) (data : List Byte) (hd : DataChunk bytes w data)
    (hdl : data.length = w.dataSize) (hal : 7 * w.channels ≤ w.align) (hv : ∀ b ∈ samplesOf w.align data, ValidBlock w.channels b)
    (ns : List (BitVec 32)) : adRun ms (msOpen w) (ns.map .read) = .ok (AdSpec.run (decode w.channels w.align data) 0 (ns.map .read)) := by
  rcases ms_wellFormed e ht data hd hdl hal hv with ⟨-, h, -⟩ | ⟨-, h, -⟩
  · exact adRun_reads ms_mono_implements ns (msOpen_good h) 0 _ (Nat.zero_le _) rfl
  · exact adRun_reads ms_stereo_implements ns (msOpen_good h) 0 _ (Nat.zero_le _) rfl

/-- **C96.** Every sequence of reads from any mono or stereo Microsoft ADPCM file, complete or cut off anywhere, delivers exactly the samples that are there (up to the number that the header
announces), including those of an incomplete last block, in order, each once, and then no more. -/
theorem C96_cut (bytes : List Byte) (w : Wav) (e : init bytes = some w) (ht : w.tag = 2) (data : List Byte) (hd : DataChunk bytes w data)
    (hal : 7 * w.channels ≤ w.align) (hv : ∀ b ∈ samplesOf w.align data, ValidBlock w.channels b)
    (hr : 7 * w.channels ≤ (MsSpec.rest w.align data).length → ValidBlock w.channels (MsSpec.rest w.align data))
    (ns : List (BitVec 32)) : adRun ms (msOpen w) (ns.map .read) = .ok (AdSpec.run ((decodeAll w.channels w.align data).take w.total) 0 (ns.map .read)) := by
  obtain ⟨-, hc0, -, -, -, h6, -, -, h9, -⟩ := init_spec e
  obtain ⟨-, hc2, -, i4, i5⟩ := h9 (by rw [ht]; rfl)
  rw [ht, ms_total h6 (by omega) i4] at i5
  unfold decodeAll
  rcases (by omega : w.channels = 1 ∨ w.channels = 2) with h1 | h2
  · rw [h1] at hal i5 hv hr ⊢
    have hper : msMono.per w.align = perBlock 1 w.align := by
      show 2 + 2 * ((w.align - 7) / 1) = 2 * (w.align - 6 * 1)
      omega
    obtain ⟨miss, h⟩ := open_any ms_mono_implements data hd h1 (by show 7 ≤ w.align; omega) (by omega) i4 rfl (ms_short _ _ rfl) mono
      (fun b hb => ms_mono_block (hv b hb)) (fun h => ms_mono_block (hr h)) (by rw [i5, hper]) (msOpen w) rfl rfl rfl rfl (by simp [msOpen, ms])
    exact adRun_reads ms_mono_implements ns h 0 _ (Nat.zero_le _) rfl
  · rw [h2] at hal i5 hv hr ⊢
    have hper : msStereo.per w.align = perBlock 2 w.align := by
      show 4 + 2 * ((w.align - 14) / 1) = 2 * (w.align - 6 * 2)
      omega
    obtain ⟨miss, h⟩ := open_any ms_stereo_implements data hd h2 (by show 14 ≤ w.align; omega) (by omega) i4 rfl (ms_short _ _ rfl) stereo
      (fun b hb => ms_stereo_block (hv b hb)) (fun h => ms_stereo_block (hr h)) (by rw [i5, hper]) (msOpen w) rfl rfl rfl rfl (by simp [msOpen, ms])
    exact adRun_reads ms_stereo_implements ns h 0 _ (Nat.zero_le _) rfl

/-- **C96.** In such a file of less than 2 GiB every sequence of reads, seeks and restarts behaves like a tape of the samples that the format prescribes, as long as it goes back only
from the boundary of two blocks. -/
theorem C96_tape_partial (bytes : List Byte) (w : Wav) (e : init bytes = some w) (ht : w.tag = 2) (hl : bytes.length < 2 ^ 31) (data : List Byte)
    (hd : DataChunk bytes w data) (hdl : data.length = w.dataSize) (hal : 7 * w.channels ≤ w.align) (hv : ∀ b ∈ samplesOf w.align data, ValidBlock w.channels b)
    (ops : List ROp) (hf : Forward (perBlock w.channels w.align) (decode w.channels w.align data).length 0 ops) :
    adRun ms (msOpen w) ops = .ok (AdSpec.run (decode w.channels w.align data) 0 ops) := by
  obtain ⟨-, -, -, -, -, -, h7, -, -, -, h11⟩ := init_spec e
  rcases ms_wellFormed e ht data hd hdl hal hv with ⟨-, h, hp⟩ | ⟨-, h, hp⟩
  · rw [← hp] at hf
    exact adRun_spec ms_mono_implements h (h11 hl) h7 ops (Nat.zero_le _) (msOpen_good h) hf
  · rw [← hp] at hf
    exact adRun_spec ms_stereo_implements h (h11 hl) h7 ops (Nat.zero_le _) (msOpen_good h) hf

/-- **C96.** The number of samples that the file announces (`length()`) is the number of samples the format prescribes. -/
theorem C96_length (bytes : List Byte) (w : Wav) (e : init bytes = some w) (ht : w.tag = 2) (data : List Byte) (hd : DataChunk bytes w data)
    (hdl : data.length = w.dataSize) (hal : 7 * w.channels ≤ w.align) (hv : ∀ b ∈ samplesOf w.align data, ValidBlock w.channels b) :
    w.total = (decode w.channels w.align data).length ∧ w.total = perBlock w.channels w.align * (w.dataSize / w.align) := by
  obtain ⟨-, -, -, -, -, h6, -, -, h9, -⟩ := init_spec e
  obtain ⟨-, hc2, -, i4, i5⟩ := h9 (by rw [ht]; rfl)
  refine ⟨?_, by rw [i5, ht, ms_total h6 (by omega) i4, Nat.mul_comm]⟩
  rcases ms_wellFormed e ht data hd hdl hal hv with ⟨-, h, -⟩ | ⟨-, h, -⟩
  · exact h.total.symm
  · exact h.total.symm

theorem DrWav.ms_samples_range {s : MsCh} {ns : List Nat} {x : Int} (h : x ∈ samples s ns) : -32768 ≤ x ∧ x ≤ 32767 := by
  induction ns generalizing s with
  | nil => exact absurd h (by simp [samples])
  | cons n ns ih =>
    rw [samples, List.mem_cons] at h
    rcases h with rfl | h
    · exact ms_new_range s n
    · exact ih h

/-- **C96.** Every sample is a 16-bit number, and becomes that number divided by `2^15`, exactly: a `float` in `[-1, 1)`. -/
theorem C96_range (channels align : Nat) (data : List Byte) (x : Int) (h : x ∈ decode channels align data) :
    -32768 ≤ x ∧ x ≤ 32767 ∧ s16ToF32 x = x / 32768 ∧ -1 ≤ s16ToF32 x ∧ s16ToF32 x < 1 := by
  have hx : -32768 ≤ x ∧ x ≤ 32767 := by
    unfold decode at h
    rw [List.mem_flatMap] at h
    obtain ⟨b, -, h⟩ := h
    split at h
    · unfold mono at h
      rw [List.mem_cons, List.mem_cons] at h
      rcases h with rfl | rfl | h
      · exact int16_range b 5
      · exact int16_range b 3
      · exact ms_samples_range h
    · unfold stereo at h
      rcases interleave_mem h with h | h <;> rw [List.mem_cons, List.mem_cons] at h <;> rcases h with rfl | rfl | h
      · exact int16_range b 10
      · exact int16_range b 6
      · exact ms_samples_range h
      · exact int16_range b 12
      · exact int16_range b 8
      · exact ms_samples_range h
  have he : s16ToF32 x = x / 32768 := s16_exact hx.1 hx.2
  have h1 : (-32768 : ℚ) ≤ x := by exact_mod_cast hx.1
  have h2 : (x : ℚ) ≤ 32767 := by exact_mod_cast hx.2
  refine ⟨hx.1, hx.2, he, ?_, ?_⟩
  · rw [he, le_div_iff₀ (by norm_num)]; linarith
  · rw [he, div_lt_one (by norm_num)]; linarith

/-- **C96.** `restart()` and `seek(0)` inside a block do not go back to the first sample: when an odd number of samples has been read, the next sample is the one that would have come
next. -/
theorem C96_restart_violation (bytes : List Byte) (w : Wav) (e : init bytes = some w) (ht : w.tag = 2) (hl : bytes.length < 2 ^ 31) (data : List Byte)
    (hd : DataChunk bytes w data) (hdl : data.length = w.dataSize) (hal : 7 * w.channels ≤ w.align) (hv : ∀ b ∈ samplesOf w.align data, ValidBlock w.channels b)
    (n : BitVec 32) (hn : n.toNat < (decode w.channels w.align data).length) (ho : n.toNat % 2 = 1) :
    adRun ms (msOpen w) [.read n, .restart, .read 1] =
      .ok [.samples ((decode w.channels w.align data).take n.toNat), .bool true, .samples (((decode w.channels w.align data).drop n.toNat).take 1)] ∧
    adRun ms (msOpen w) [.read n, .seek 0, .read 1] =
      .ok [.samples ((decode w.channels w.align data).take n.toNat), .bool true, .samples (((decode w.channels w.align data).drop n.toNat).take 1)] := by
  obtain ⟨-, -, -, -, -, -, h7, -, -, -, h11⟩ := init_spec e
  obtain ⟨l1, l2⟩ := C96_length bytes w e ht data hd hdl hal hv
  have hodd : ((decode w.channels w.align data).length - n.toNat) % perBlock w.channels w.align % 2 ≠ 0 := by
    rw [Nat.mod_mod_of_dvd _ (show 2 ∣ perBlock w.channels w.align from ⟨_, rfl⟩), ← l1, l2]
    have : perBlock w.channels w.align * (w.dataSize / w.align) = 2 * ((w.align - 6 * w.channels) * (w.dataSize / w.align)) := by unfold perBlock; ring
    rw [← l1, l2] at hn
    rw [this] at hn ⊢
    omega
  rcases ms_wellFormed e ht data hd hdl hal hv with ⟨h1, h, hp⟩ | ⟨h1, h, hp⟩
  · rw [← hp] at hodd
    exact adRun_stale ms_mono_implements h (h11 hl) h7 (msOpen_good h) n hodd
  · rw [← hp] at hodd
    exact adRun_stale ms_stereo_implements h (h11 hl) h7 (msOpen_good h) n hodd

/-! ## Broken files -/

namespace DrWav

/-- A round of the loop in which the decoder fails. -/
theorem round_error {σ : Type} {c : Codec σ} {s : Ad σ} {n k : Nat} {e : Bad} (h1 : s.cache.length = c.size) (h2 : s.count ≤ c.size) (h3 : s.cur + s.count < s.w.total)
    (h4 : 0 < s.count) (h5 : s.count < n) (h6 : s.rem ≠ 0) (h : c.load { s with count := 0, cur := s.cur + s.count } = .error e) : readFuel c (k + 1) s n = .error e := by
  obtain ⟨xs, d1, d2⟩ := drain_len c.size n s h1 h2 (by omega)
  have hm : min n s.count = s.count := by omega
  rw [hm] at d1 d2
  rw [readFuel, if_neg (by omega), if_neg (by omega)]
  simp only
  rw [d1]
  simp only
  rw [if_neg (by omega), Nat.sub_self, if_pos ⟨rfl, h6⟩, h]

/-- A round of the loop that is followed by an error. -/
theorem round_ok {σ : Type} {c : Codec σ} {s s' : Ad σ} {n k : Nat} {e : Bad} (h1 : s.cache.length = c.size) (h2 : s.count ≤ c.size) (h3 : s.cur + s.count < s.w.total)
    (h4 : 0 < s.count) (h5 : s.count < n) (h6 : s.rem ≠ 0) (h : c.load { s with count := 0, cur := s.cur + s.count } = .ok (true, s'))
    (h' : readFuel c k s' (n - s.count) = .error e) : readFuel c (k + 1) s n = .error e := by
  obtain ⟨xs, d1, d2⟩ := drain_len c.size n s h1 h2 (by omega)
  have hm : min n s.count = s.count := by omega
  rw [hm] at d1 d2
  rw [readFuel, if_neg (by omega), if_neg (by omega)]
  simp only
  rw [d1]
  simp only
  rw [if_neg (by omega), Nat.sub_self, if_pos ⟨rfl, h6⟩, h]
  simp only
  rw [d2, h']

/-- Opening and reading the first header of a mono file. -/
theorem ms_first {w : Wav} (hch : w.channels = 1) (h rest : List Byte) (e : w.file.bytes.drop w.file.pos = h ++ rest) (hh : h.length = 7) (hal : 7 ≤ w.align)
    (hal' : w.align < 65536) (ht : 0 < w.total) :
    ∃ s, s.w = { w with file := { w.file with pos := w.file.pos + 7 } } ∧ s.cur = 0 ∧ s.rem = w.align - 7 ∧ s.cache.length = 4 ∧ s.count = 2 ∧ s.st.left = start h ∧
      ∀ n e, n ≠ 0 → readFuel ms (2 * min n 2048 + 1) s (min n 2048) = .error e → readAd ms (msOpen w) n = .error e := by
  obtain ⟨s, i1, ⟨i2, i3⟩, i4, i5, i6, -, i7, -⟩ := ms_mono_implements.header (msOpen w) h rest hch (by simp [msOpen, ms]) e hh hal hal'
  have i6' : s.count = 2 := i6
  have i3' : s.cur = 0 := i3
  refine ⟨s, i2, i3, i4, i5, i6, i7, fun n e hn he => ?_⟩
  have key : ∀ k m, m ≠ 0 → readFuel ms (k + 1) (msOpen w) m = readFuel ms (k + 1) s m := by
    intro k m hm
    have hs : s.w.total = w.total := by rw [i2]; rfl
    rw [readFuel, readFuel]
    rw [if_neg (show ¬(m = 0 ∨ (msOpen w).w.total ≤ (msOpen w).cur) by show ¬(m = 0 ∨ w.total ≤ 0); omega),
      if_neg (show ¬(m = 0 ∨ s.w.total ≤ s.cur) by omega), if_pos (show (msOpen w).count = 0 ∧ (msOpen w).rem = 0 from ⟨rfl, rfl⟩), i1,
      if_neg (show ¬(s.count = 0 ∧ s.rem = 0) by omega)]
  rw [readAd, if_neg hn, readS16, key _ _ (by omega), he]

/-- Decoding a byte of a mono file. -/
theorem msLoad_eq {s : Ad (Two MsCh)} (hch : s.w.channels = 1) (x : Byte) (rest : List Byte) (e : s.w.file.bytes.drop s.w.file.pos = x :: rest) :
    msLoad s = (msNibble s.st.left (x.toNat / 16)).bind fun a => (msNibble a (x.toNat % 16)).bind fun b =>
      .ok (true, ⟨{ s.w with file := { s.w.file with pos := s.w.file.pos + 1 } }, s.cur, blockRest s.rem 1, (s.cache.set 2 a.new).set 3 b.new, 2, ⟨b, s.st.right⟩⟩) := by
  have hr := fread_append (f := s.w.file) (h := [x]) (rest := rest) e
  rw [show [x].length = 1 by rfl] at hr
  unfold msLoad
  rw [hr]
  simp only
  rw [if_neg (by simp), if_pos (by exact hch)]
  rfl

/-- The code 8 triples the step. -/
theorem ms_code8 {s : MsCh} (h : s.Ok) (hd : 6 ≤ s.delta) : ∃ s', msNibble s 8 = .ok s' ∧ s'.predictor = s.predictor ∧ s'.delta = 3 * s.delta ∧ s'.Ranged := by
  refine ⟨_, msNibble_eq h (by omega), rfl, ?_, ?_⟩
  · show max 16 (768 * s.delta / 256) = _
    omega
  · obtain ⟨h1, h2, h3, h4, h5⟩ := h
    exact MsCh.Ranged.next ⟨h3, h4, h5⟩ 8

theorem ms_overflow {s : MsCh} (h : s.predictor < 7) (hr : s.Ranged) (hd : 2147483648 ≤ 768 * s.delta) (hd' : s.delta < 100000000) : msNibble s 8 = .error .signedOverflow := by
  have c1 := ms_coeff1 ⟨s.predictor, h⟩
  have c2 := ms_coeff2 ⟨s.predictor, h⟩
  have cb := ms_coeff_bound ⟨s.predictor, h⟩
  simp only at c1 c2 cb
  obtain ⟨-, ⟨h4, h5⟩, h6, h7⟩ := hr
  unfold msNibble
  rw [c1, c2, show readAt msAdapt 8 = .ok 768 by rfl]
  generalize (coeff s.predictor).1 = k1 at *
  generalize (coeff s.predictor).2 = k2 at *
  obtain ⟨pr, delta, old, new⟩ := s
  simp only at *
  have m1 := mul_bounds (a := new) (b := k1) (A := 32768) (B := 512) (abs_le.2 (by omega)) (abs_le.2 (by omega))
  have m2 := mul_bounds (a := old) (b := k2) (A := 32768) (B := 256) (abs_le.2 (by omega)) (abs_le.2 (by omega))
  simp only [bind, Except.bind]
  rw [int32_ok (by omega)]
  simp only
  rw [int32_ok (by omega)]
  simp only
  rw [int32_ok (by omega)]
  simp only [if_pos (show 8 ≤ 8 by omega)]
  rw [int32_ok (by push_cast; omega)]
  simp only
  rw [int32_ok (by push_cast; omega)]
  simp only
  rw [show int32 (768 * delta) = .error .signedOverflow by unfold int32; rw [if_neg (by omega)]]

end DrWav

/-- **C96.** The header of a block can contain any number of a predictor: in a mono file, reading the third sample of a block with a number above 6 reads outside the tables. -/
theorem C96_predictor_violation (bytes : List Byte) (w : Wav) (e : init bytes = some w) (ht : w.tag = 2) (hch : w.channels = 1) (hal : 8 ≤ w.align) (data : List Byte)
    (hd : DataChunk bytes w data) (hds : w.align ≤ w.dataSize) (hdl : 8 ≤ data.length) (hp : 7 ≤ (start data).predictor) (n : BitVec 32) (hn : 3 ≤ n.toNat) :
    adRun ms (msOpen w) [.read n] = .error .oobRead := by
  obtain ⟨-, hc0, -, -, -, h6, -, -, h9, -⟩ := init_spec e
  obtain ⟨-, hc2, -, i4, i5⟩ := h9 (by rw [ht]; rfl)
  rw [ht, ms_total h6 (by omega) i4, hch] at i5
  have hq : 1 ≤ w.dataSize / w.align := (Nat.one_le_div_iff (by omega)).2 hds
  have htot : 4 ≤ w.total := by
    rw [i5]
    have : 4 ≤ perBlock 1 w.align := by unfold perBlock; omega
    calc 4 = 1 * 4 := rfl
      _ ≤ _ := Nat.mul_le_mul hq this
  obtain ⟨rest, hdr⟩ := dataChunk_drop hd
  obtain ⟨x, t, hx⟩ : ∃ x t, data.drop 7 = x :: t := by
    cases h : data.drop 7 with
    | nil => have := congrArg List.length h; rw [List.length_drop] at this; simp at this; omega
    | cons x t => exact ⟨x, t, rfl⟩
  have hsplit : w.file.bytes.drop w.file.pos = data.take 7 ++ (x :: (t ++ rest)) := by
    rw [← List.cons_append, ← hx, ← List.append_assoc, List.take_append_drop, hdr]
  obtain ⟨s, k1, k2, k3, k4, k5, k6, k7⟩ := ms_first hch _ _ hsplit (by rw [List.length_take]; omega) (by omega) i4 (by omega)
  have hw1 : s.w.total = w.total := by rw [k1]
  have hw2 : s.w.channels = 1 := by rw [k1]; exact hch
  have hst : s.st.left.predictor = (start data).predictor := by
    rw [k6]; unfold start; rw [getD_take data (by omega)]
  rw [adRun, adStep, k7 n.toNat .oobRead (by omega)]
  · rfl
  refine round_error k4 (by rw [k5]; decide) (by omega) (by omega) (by omega) (by omega) ?_
  show msLoad _ = _
  rw [msLoad_eq (by exact hw2) x (t ++ rest) (by
    simp only
    rw [k1]
    simp only
    rw [← List.drop_drop, hsplit, List.drop_left' (by rw [List.length_take]; omega)])]
  have hnib : ∀ m, msNibble s.st.left m = .error .oobRead := by
    intro m
    unfold msNibble
    have hrd : readAt msCoeff1 s.st.left.predictor = .error .oobRead := by
      unfold readAt
      rw [List.getElem?_eq_none (by show 7 ≤ _; omega)]
    rw [hrd]
    rfl
  simp only
  rw [hnib]
  rfl

/-- **C96.** The step can grow beyond what the multiplication with its factor can hold: a mono block with a step of 11508 or more in its header, followed by six codes 8, overflows
a signed integer when the seventh sample is read. -/
theorem C96_overflow_violation (bytes : List Byte) (w : Wav) (e : init bytes = some w) (ht : w.tag = 2) (hch : w.channels = 1) (hal : 10 ≤ w.align) (data : List Byte)
    (hd : DataChunk bytes w data) (hds : w.align ≤ w.dataSize) (hp : (start data).predictor < 7) (hstep : 11508 ≤ (start data).delta)
    (hcodes : (data.drop 7).take 3 = [0x88, 0x88, 0x88]) (n : BitVec 32) (hn : 7 ≤ n.toNat) :
    adRun ms (msOpen w) [.read n] = .error .signedOverflow := by
  obtain ⟨-, hc0, -, -, -, h6, -, -, h9, -⟩ := init_spec e
  obtain ⟨-, hc2, -, i4, i5⟩ := h9 (by rw [ht]; rfl)
  rw [ht, ms_total h6 (by omega) i4, hch] at i5
  have hq : 1 ≤ w.dataSize / w.align := (Nat.one_le_div_iff (by omega)).2 hds
  have htot : 8 ≤ w.total := by
    rw [i5]
    have : 8 ≤ perBlock 1 w.align := by unfold perBlock; omega
    calc 8 = 1 * 8 := rfl
      _ ≤ _ := Nat.mul_le_mul hq this
  obtain ⟨rest, hdr⟩ := dataChunk_drop hd
  have hdl : 7 ≤ data.length := by
    by_contra h
    rw [List.drop_eq_nil_of_le (by omega)] at hcodes
    exact absurd hcodes (by decide)
  generalize ht' : (data.drop 7).drop 3 = t
  have hx : data.drop 7 = 0x88 :: 0x88 :: 0x88 :: t := by
    rw [← List.take_append_drop 3 (data.drop 7), hcodes, ht']; rfl
  have hsplit : w.file.bytes.drop w.file.pos = data.take 7 ++ (0x88 :: 0x88 :: 0x88 :: (t ++ rest)) := by
    rw [← List.cons_append, ← List.cons_append, ← List.cons_append, ← hx, ← List.append_assoc, List.take_append_drop, hdr]
  obtain ⟨s, k1, k2, k3, k4, k5, k6, k7⟩ := ms_first hch _ _ hsplit (by rw [List.length_take]; omega) (by omega) i4 (by omega)
  have hw1 : s.w.total = w.total := by rw [k1]
  have hw2 : s.w.channels = 1 := by rw [k1]; exact hch
  have hst : s.st.left = start data := by
    rw [k6]; unfold start
    rw [getD_take data (by omega), int16_take data (by omega), int16_take data (by omega), int16_take data (by omega)]
  have hfile : s.w.file.bytes.drop s.w.file.pos = 0x88 :: 0x88 :: 0x88 :: (t ++ rest) := by
    rw [k1]
    simp only
    rw [← List.drop_drop, hsplit, List.drop_left' (by rw [List.length_take]; omega)]
  have hfile1 : s.w.file.bytes.drop (s.w.file.pos + 1) = 0x88 :: 0x88 :: (t ++ rest) := by rw [← List.drop_drop, hfile]; rfl
  have hfile2 : s.w.file.bytes.drop (s.w.file.pos + 1 + 1) = 0x88 :: (t ++ rest) := by rw [← List.drop_drop, hfile1]; rfl
  have hr0 : (start data).Ranged := ⟨(int16_range data 1).1, int16_range data 5, int16_range data 3⟩
  have hdm : (start data).delta ≤ 32767 := (int16_range data 1).2
  generalize start data = c0 at *
  obtain ⟨c1, n1, p1, d1, r1⟩ := ms_code8 (s := c0) ⟨hp, by omega, hr0.1, hr0.2.1, hr0.2.2⟩ (by omega)
  obtain ⟨c2, n2, p2, d2, r2⟩ := ms_code8 (s := c1) ⟨by omega, by omega, r1.1, r1.2.1, r1.2.2⟩ (by omega)
  obtain ⟨c3, n3, p3, d3, r3⟩ := ms_code8 (s := c2) ⟨by omega, by omega, r2.1, r2.2.1, r2.2.2⟩ (by omega)
  obtain ⟨c4, n4, p4, d4, r4⟩ := ms_code8 (s := c3) ⟨by omega, by omega, r3.1, r3.2.1, r3.2.2⟩ (by omega)
  obtain ⟨c5, n5, p5, d5, r5⟩ := ms_code8 (s := c4) ⟨by omega, by omega, r4.1, r4.2.1, r4.2.2⟩ (by omega)
  have n6 : msNibble c5 8 = .error .signedOverflow := ms_overflow (by omega) r5 (by omega) (by omega)
  have hb : (0x88 : Byte).toNat / 16 = 8 ∧ (0x88 : Byte).toNat % 16 = 8 := by decide
  rw [adRun, adStep, k7 n.toNat .signedOverflow (by omega)]
  · rfl
  generalize hm : min n.toNat 2048 = m
  have hm7 : 7 ≤ m := by omega
  rw [show 2 * m + 1 = (2 * m - 2) + 1 + 1 + 1 by omega]
  have hrest1 : blockRest s.rem 1 = s.rem - 1 := blockRest_eq (by omega) (by omega)
  have hrest2 : blockRest (s.rem - 1) 1 = s.rem - 2 := by rw [blockRest_eq (by omega) (by omega)]; omega
  refine round_ok k4 (by rw [k5]; decide) (by omega) (by omega) (by omega) (by omega) (s' := ?a1) ?_ ?_
  rotate_left
  · show msLoad _ = _
    rw [msLoad_eq (by exact hw2) _ _ (by exact hfile), hb.1, hb.2]
    simp only
    rw [hst, n1]
    simp only [Except.bind]
    rw [n2]
  · refine round_ok (by simp only [List.length_set]; exact k4) (by show 2 ≤ 4; omega) (by simp only; omega) (by simp only; omega) (by simp only; omega)
      (by simp only; omega) (s' := ?a2) ?_ ?_
    rotate_left
    · show msLoad _ = _
      rw [msLoad_eq (by exact hw2) _ _ (by exact hfile1), hb.1, hb.2]
      simp only
      rw [n3]
      simp only [Except.bind]
      rw [n4]
    · refine round_error (by simp only [List.length_set]; exact k4) (by show 2 ≤ 4; omega) (by simp only; omega) (by simp only; omega) (by simp only; omega)
        (by simp only [hrest1, hrest2]; omega) ?_
      show msLoad _ = _
      rw [msLoad_eq (by exact hw2) _ _ (by exact hfile2), hb.1, hb.2]
      simp only
      rw [n5]
      simp only [Except.bind]
      rw [n6]

/-- A block of a mono file: predictor 1, step 20, samples 100 and -50, four bytes of codes. -/
def msBlock : List Byte := [1, 20, 0, 100, 0, 0xCE, 0xFF, 0x2F, 0x80, 0x71, 0x0C]

theorem msBlock_decode : decode 1 11 msBlock = [-50, 100, 290, 463, 508, 553, 899, 1348, 1797, 1918] := by
  unfold decode
  rw [← groups_eq_samplesOf 11 (by decide)]
  decide

theorem msBlock_valid : ∀ b ∈ samplesOf 11 msBlock, ValidBlock 1 b := by
  rw [← groups_eq_samplesOf 11 (by decide)]
  intro b hb
  have : b = msBlock := by simpa [groups, msBlock] using hb
  rw [this]
  show Fits (start msBlock) (both (msBlock.drop 7))
  rw [show start msBlock = ⟨1, 20, -50, 100⟩ by rfl, show both (msBlock.drop 7) = [2, 15, 8, 0, 7, 1, 0, 12] by rfl]
  simp only [Fits]
  decide

/-- A file whose header announces ten blocks, but which contains one and all but one byte of the next. -/
example : ∃ w, init (header 2 1 8000 0 11 4 100 110 ++ (msBlock ++ msBlock.take 10)) = some w ∧ w.total = 100 ∧
    adRun ms (msOpen w) [.read 3, .read 100, .read 100] =
      .ok [.samples [-50, 100, 290], .samples [463, 508, 553, 899, 1348, 1797, 1918, -50, 100, 290, 463, 508, 553, 899, 1348], .samples []] := by
  obtain ⟨w, e, h1, h2, h3, h4, h5, h6⟩ := adpcm_open 2 1 11 110 (msBlock ++ msBlock.take 10) (by decide) (by decide) (by decide) (by decide) (by decide) (by decide)
  have e1 : samplesOf 11 ((msBlock ++ msBlock.take 10).take 110) = samplesOf 11 msBlock := by
    rw [← groups_eq_samplesOf 11 (by decide), ← groups_eq_samplesOf 11 (by decide)]
    decide
  have e2 : MsSpec.rest 11 ((msBlock ++ msBlock.take 10).take 110) = msBlock.take 10 := by decide
  have key : decodeAll 1 11 ((msBlock ++ msBlock.take 10).take 110) = [-50, 100, 290, 463, 508, 553, 899, 1348, 1797, 1918, -50, 100, 290, 463, 508, 553, 899, 1348] := by
    unfold decodeAll
    rw [show decode 1 11 ((msBlock ++ msBlock.take 10).take 110) = decode 1 11 msBlock by unfold decode; rw [e1], msBlock_decode, e2]
    decide
  refine ⟨w, e, by rw [h5]; decide, ?_⟩
  have hr := C96_cut _ w e h1 _ h6 (by rw [h2, h3]; decide) (by rw [h2, h3, e1]; exact msBlock_valid) (by
    intro _
    rw [h2, h3, e2]
    show Fits (start (msBlock.take 10)) (both ((msBlock.take 10).drop 7))
    rw [show start (msBlock.take 10) = ⟨1, 20, -50, 100⟩ by rfl, show both ((msBlock.take 10).drop 7) = [2, 15, 8, 0, 7, 1] by rfl]
    simp only [Fits]
    decide) [3, 100, 100]
  rw [h2, h3, key, h5] at hr
  exact hr.trans (by decide)

/-- Reading, seeking forward and restarting at the end. -/
example : ∃ w, init (header 2 1 8000 0 11 4 100 11 ++ msBlock) = some w ∧
    adRun ms (msOpen w) [.read 3, .seek 5, .read 20, .restart, .read 2] =
      .ok [.samples [-50, 100, 290], .bool true, .samples [553, 899, 1348, 1797, 1918], .bool true, .samples [-50, 100]] := by
  obtain ⟨w, e, h1, h2, h3, h4, -, h6⟩ := adpcm_open 2 1 11 11 msBlock (by decide) (by decide) (by decide) (by decide) (by decide) (by decide)
  refine ⟨w, e, ?_⟩
  rw [C96_tape_partial _ w e h1 (by decide) _ h6 (by rw [h4]; decide) (by rw [h2, h3]; decide), h2, h3, show msBlock.take 11 = msBlock by rfl, msBlock_decode]
  · decide
  · rw [h2, h3]; exact msBlock_valid
  · rw [h2, h3, show msBlock.take 11 = msBlock by rfl, msBlock_decode]
    simp [Forward, perBlock]

/-- Restarting inside the block. -/
example : ∃ w, init (header 2 1 8000 0 11 4 100 11 ++ msBlock) = some w ∧
    adRun ms (msOpen w) [.read 3, .restart, .read 1] = .ok [.samples [-50, 100, 290], .bool true, .samples [463]] := by
  obtain ⟨w, e, h1, h2, h3, h4, -, h6⟩ := adpcm_open 2 1 11 11 msBlock (by decide) (by decide) (by decide) (by decide) (by decide) (by decide)
  refine ⟨w, e, ?_⟩
  rw [(C96_restart_violation _ w e h1 (by decide) _ h6 (by rw [h4]; decide) (by rw [h2, h3]; decide) _ 3 _ (by decide)).1, h2, h3,
    show msBlock.take 11 = msBlock by rfl, msBlock_decode]
  · decide
  · rw [h2, h3]; exact msBlock_valid
  · rw [h2, h3, show msBlock.take 11 = msBlock by rfl, msBlock_decode]; decide

/-- A stereo block. -/
def msBlock2 : List Byte := [1, 6, 20, 0, 0x2C, 1, 100, 0, 0x18, 0xFC, 0xCE, 0xFF, 0x84, 3, 0x2F, 0x80, 0x71, 0x0C]

example : ∃ w, init (header 2 2 8000 0 18 4 100 18 ++ msBlock2) = some w ∧
    adRun ms (msOpen w) [.read 5, .read 100] = .ok [.samples [-50, 900, 100, -1000, 290], .samples [-2647, 344, -3147, 755, -2179, 1166, -1349]] := by
  obtain ⟨w, e, h1, h2, h3, h4, -, h6⟩ := adpcm_open 2 2 18 18 msBlock2 (by decide) (by decide) (by decide) (by decide) (by decide) (by decide)
  refine ⟨w, e, ?_⟩
  rw [show ([.read 5, .read 100] : List ROp) = [5, 100].map .read by rfl, C96_reads _ w e h1 _ h6 (by rw [h4]; decide) (by rw [h2, h3]; decide), h2, h3]
  · unfold decode
    rw [← groups_eq_samplesOf 18 (by decide)]
    decide +kernel
  · rw [h2, h3, ← groups_eq_samplesOf 18 (by decide)]
    intro b hb
    have : b = msBlock2 := by simpa [groups, msBlock2] using hb
    rw [this]
    show Fits (startLeft msBlock2) (high (msBlock2.drop 14)) ∧ Fits (startRight msBlock2) (low (msBlock2.drop 14))
    rw [show startLeft msBlock2 = ⟨1, 20, -50, 100⟩ by rfl, show high (msBlock2.drop 14) = [2, 8, 7, 0] by rfl,
      show startRight msBlock2 = ⟨6, 300, 900, -1000⟩ by rfl, show low (msBlock2.drop 14) = [15, 0, 1, 12] by rfl]
    simp only [Fits]
    decide

/-- Predictor 7. -/
example : ∃ w, init (header 2 1 8000 0 8 4 100 8 ++ [7, 20, 0, 100, 0, 0xCE, 0xFF, 0x2F]) = some w ∧ adRun ms (msOpen w) [.read 3] = .error .oobRead := by
  obtain ⟨w, e, h1, h2, h3, h4, -, h6⟩ := adpcm_open 2 1 8 8 [7, 20, 0, 100, 0, 0xCE, 0xFF, 0x2F] (by decide) (by decide) (by decide) (by decide) (by decide) (by decide)
  exact ⟨w, e, C96_predictor_violation _ w e h1 h2 (by rw [h3]) _ h6 (by rw [h3, h4]) (by decide) (by decide) 3 (by decide)⟩

/-- Step 12000 and six codes 8. -/
example : ∃ w, init (header 2 1 8000 0 10 4 100 10 ++ [0, 0xE0, 0x2E, 100, 0, 0xCE, 0xFF, 0x88, 0x88, 0x88]) = some w ∧
    adRun ms (msOpen w) [.read 7] = .error .signedOverflow := by
  obtain ⟨w, e, h1, h2, h3, h4, -, h6⟩ := adpcm_open 2 1 10 10 [0, 0xE0, 0x2E, 100, 0, 0xCE, 0xFF, 0x88, 0x88, 0x88]
    (by decide) (by decide) (by decide) (by decide) (by decide) (by decide)
  exact ⟨w, e, C96_overflow_violation _ w e h1 h2 (by rw [h3]) _ h6 (by rw [h3, h4]) (by decide) (by decide) (by decide) 7 (by decide)⟩

end Verif
