import Verif.Whole.MsLemmas
import Verif.Whole.Examples
import Verif.Ms.ImageProps
import Verif.Ms.FileProps

/-!
# MS archives from the bytes to the properties (C65)
-/

set_option autoImplicit false

namespace Wz.Props

open Wz Wz.Spec Wz.Spec.Snow Wz.Spec.Ms

/-- a node of an MS archive that has not been read -/
def NewMs (h : NHeap) (i : Nat) : Prop := ∃ c, h.cell i = some c ∧ c.kind = .msFile false 0 ∧ c.kids = []

/-- Parsing the root succeeds, and afterwards, whatever was looked up, read and forgotten before, every path and every child shows what is in
the archive. -/
def MsReadsBack (content : Content) (reader : List Char → Env) (arch : List (List Char × ATree)) : Prop :=
  ∀ h i, NewMs h i → ∃ g, h.parse content i = (.ok (), g) ∧ ∀ ops : List MsOp, (∀ op ∈ ops, AllowedMs arch op) →
    FindsMs content reader (runMs content i g ops) i arch ∧ ChildrenMs content reader (runMs content i g ops) i arch

theorem msTree_flat {m : Mode} {ks2 : Nat → Byte} {files : List (List Char × MsItem)} (hs : ∀ x ∈ files, MsStored m ks2 x) : FlatMs (msTree files) := by
  intro n ks hl
  unfold msTree at hl
  rw [lastNamed_map] at hl
  cases hx : lastNamed files n with
  | none => rw [hx] at hl; cases hl
  | some x =>
    rw [hx] at hl
    have := (hs _ (lastNamed_mem hx)).2
    have e : x.tree = .dir ks := by simpa using hl
    dsimp only at this
    rw [e] at this
    cases this

/-- C65 for any MS archive whose images can be decrypted: nodes and values are those of the images. -/
theorem C65_archive (m : Mode) (C : ChaCha) (ks2 : Nat → Byte) (f : MsFile) (ims : List MsImage) (files : List (List Char × MsItem))
    (hp : f.parse m C = .ok ims)
    (hd : All2 (fun im (x : List Char × MsItem) => f.toWzImage m C im = .ok ⟨x.1, x.2.data, x.2.data.length⟩) ims files)
    (hs : ∀ x ∈ files, MsStored m ks2 x) :
    ∃ N, ∀ fuel, N ≤ fuel → MsReadsBack (msContent m C ks2 fuel f) (msReader m ks2 files) (msTree files) := by
  obtain ⟨N, hN⟩ := msRead_all hp hd hs
  refine ⟨N, fun fuel hf h i ⟨c, hc, hk, hks⟩ => ?_⟩
  have R := hN fuel hf [] rfl
  obtain ⟨g, hg, F⟩ := ms_fresh R hc hk hks (by show (f.parse m C).map (msForest 1) = _; rw [hp]; rfl)
  refine ⟨g, hg, fun ops ha => ?_⟩
  have F' := runMs_stands (msTree_flat hs) ops g F ha
  exact ⟨stands_finds (msTree_flat hs) F', stands_children (msTree_flat hs) F'⟩

/-- an entry of a version 1 table and the file that was written for it, in an archive whose table ends at `tableEnd` -/
def Writes1 (M : Maps) (salt : List Char) (buf : Bytes) (tableEnd : Nat) (e : MsEntry) (x : List Char × MsItem) : Prop :=
  e.name = x.1 ∧ e.name ≠ [] ∧ e.size = x.2.data.length ∧ ∃ pre fill post : Bytes,
    buf = pre ++ encryptTwice (keyWord M (signedKey (imageKey1 salt e.name e.key))) (x.2.data ++ fill) ++ post ∧
    pre.length = roundUp 1024 tableEnd + 1024 * e.startPos.toNat ∧ e.sizeAligned = (x.2.data ++ fill).length

/-- the same for version 2 -/
def Writes2 (C : ChaCha) (salt : List Char) (buf : Bytes) (tableEnd : Nat) (e : MsEntry) (x : List Char × MsItem) : Prop :=
  e.name = x.1 ∧ e.name ≠ [] ∧ e.size = x.2.data.length ∧ ∃ pre fill post : Bytes,
    buf = pre ++ encryptHead (C (imageKey2 salt e.name e.key) (imageNonceOf (fnv salt))) (imageCounterOf (fnv salt)) (x.2.data ++ fill) ++ post ∧
    pre.length = roundUp 1024 tableEnd + 1024 * e.startPos.toNat ∧ e.sizeAligned = (x.2.data ++ fill).length

theorem encryptTwice_length (z : Nat → BitVec 32) (p : Bytes) : (encryptTwice z p).length = p.length := by
  unfold encryptTwice
  rw [List.length_append, encrypt_length, ← List.length_append, List.take_append_drop, encrypt_length]

theorem encryptHead_length (ks : Nat → Bytes) (n : Nat) (p : Bytes) : (encryptHead ks n p).length = p.length := by
  unfold encryptHead
  rw [List.length_append, List.length_mapIdx, ← List.length_append, List.take_append_drop]

theorem sits_written {E : Nat} {e : MsEntry} {pre block : Bytes} {data fill : Bytes} (h1 : e.size = data.length)
    (h2 : pre.length = roundUp 1024 E + 1024 * e.startPos.toNat) (h3 : e.sizeAligned = (data ++ fill).length) (h4 : block.length = (data ++ fill).length) :
    Sits (placed E e) pre block data.length := by
  refine ⟨h2.symm, ?_, h1, by rw [h4, List.length_append]; omega⟩
  show e.sizeAligned.toNat = _
  rw [h3, h4, Int.toNat_natCast]

theorem all2_map {α β γ : Type} {q : α → β} {R : α → γ → Prop} {S : β → γ → Prop} {l : List α} {r : List γ}
    (hq : ∀ a c, a ∈ l → R a c → S (q a) c) (h : All2 R l r) : All2 S (l.map q) r := by
  induction h with
  | nil => exact .nil
  | cons hab _ ih => exact .cons (hq _ _ List.mem_cons_self hab) (ih fun a c ha => hq a c (List.mem_cons_of_mem _ ha))

theorem asUsize_size {e : MsEntry} {n : Nat} (h : e.size = n) (hr : e.size < 2147483648) : asUsize e.size = n := by
  rw [h, asUsize_nat n (by omega)]

theorem entry_size {e : MsEntry} (h : EntryOk e) : e.size < 2147483648 := (h.nums e.size (by simp)).2

/-- a file of version 1 is opened, and its images are decrypted -/
theorem ms1_images : ∀ (C : ChaCha) (h : Head1) (name : List Char) (H : MsHeader) (es : List MsEntry)
    (gap pad rest : Bytes) (files : List (List Char × MsItem)),
    h.Ok name → name ≠ [] → h.result name = .ok H → i32At h.plain 5 = es.length → gap.length = 30 + 3 * nameSum name % 212 →
    (∀ e ∈ es, EntryOk e ∧ 0 ≤ e.startPos ∧ 0 ≤ e.sizeAligned ∧ e.unk3 = 0 ∧ e.unk4 = 0) →
    ((es.flatMap fields1).flatten ++ pad).length = roundUp 4 (es.flatMap fields1).flatten.length →
    ∀ buf, buf = h.bytes Snow.maps name ++ gap ++ encrypt (keyWord Snow.maps (signedKey (key2 (utf8EncStr (lower name ++ byteText h.chars)) 16))) 0 ((es.flatMap fields1).flatten ++ pad) ++ rest →
    buf.length < 2 ^ 63 →
    All2 (Writes1 Snow.maps (byteText h.chars) buf ((h.bytes Snow.maps name ++ gap).length + roundUp 4 (es.flatMap fields1).flatten.length)) es files →
    ∃ f ims, msOpen .wrap C buf name = .ok f ∧ f.parse .wrap C = .ok ims ∧
      All2 (fun im (x : List Char × MsItem) => f.toWzImage .wrap C im = .ok ⟨x.1, x.2.data, x.2.data.length⟩) ims files := by
  intro C h name H es gap pad rest files hok hn hH hc hg hes hpad buf hbuf hlen hw
  have hbuf' : buf = h.bytes Snow.maps name ++ (gap ++ encrypt (keyWord Snow.maps (signedKey (key2 (utf8EncStr (lower name ++ byteText h.chars)) 16))) 0
    ((es.flatMap fields1).flatten ++ pad) ++ rest) := by rw [hbuf]; simp only [List.append_assoc]
  have hv := headerV1_layout .wrap h name (gap ++ encrypt (keyWord Snow.maps (signedKey (key2 (utf8EncStr (lower name ++ byteText h.chars)) 16))) 0
    ((es.flatMap fields1).flatten ++ pad) ++ rest) hok hn (.inl rfl) (.inl rfl)
  rw [← hbuf', hH] at hv
  have ho : msOpen .wrap C buf name = .ok ⟨buf, H⟩ := by unfold msOpen; rw [hv]
  have hf : H.keySalt = byteText h.chars ∧ H.nameWithSalt = lower name ++ byteText h.chars ∧ H.entryCount = i32At h.plain 5 ∧ H.msVersion = 1 ∧
      H.estart = randCount name + 4 + 2 * h.salt.length + 42 + 3 * nameSum name % 212 := by
    unfold Head1.result at hH
    split at hH
    · cases hH
    · split at hH
      · cases hH
      · cases hH; exact ⟨rfl, rfl, rfl, rfl, rfl⟩
  have hl := head1_length h name hok
  have hes' : (h.bytes Snow.maps name ++ gap).length = H.estart := by rw [List.length_append, hf.2.2.2.2]; omega
  rw [hes'] at hw
  refine ⟨_, es.map (placed (H.estart + roundUp 4 (es.flatMap fields1).flatten.length)), ho, ?_, ?_⟩
  · unfold MsFile.parse
    dsimp only
    rw [if_pos hf.2.2.2.1]
    exact parseV1_table .wrap ⟨buf, H⟩ es _ pad rest (by
      show H.nameWithSalt ≠ []
      rw [hf.2.1]
      intro h0
      have := (List.append_eq_nil_iff.mp h0).1
      unfold lower at this
      exact hn (List.map_eq_nil_iff.mp this)) (.inl rfl) (by show H.entryCount = _; rw [hf.2.2.1, hc]) hes' hes hpad (by
      show buf = _ ++ encrypt (keyWord Snow.maps (signedKey (key2 (utf8EncStr H.nameWithSalt) 16))) 0 _ ++ rest
      rw [hf.2.1, hbuf]) hlen
  · refine all2_map (fun e x he hx => ?_) hw
    obtain ⟨w1, w2, w3, pre, fill, post, w4, w5, w6⟩ := hx
    have hd := imageDataV1_stored .wrap (placed (H.estart + roundUp 4 (es.flatMap fields1).flatten.length) e) (byteText h.chars) pre (x.2.data ++ fill) post
      x.2.data.length w2 _ rfl (sits_written w3 w5 w6 (encryptTwice_length _ _)) (by rw [show (placed _ e).entry.name = e.name from rfl, show (placed _ e).entry.key = e.key from rfl, ← w4]; exact hlen)
    rw [show (placed _ e).entry.name = e.name from rfl, show (placed _ e).entry.key = e.key from rfl, ← w4, List.take_left' rfl] at hd
    unfold MsFile.toWzImage
    dsimp only
    rw [if_pos hf.2.2.2.1, hf.1, hd]
    show Except.ok _ = Except.ok _
    rw [show (placed _ e).entry.size = e.size from rfl, asUsize_size w3 (entry_size (hes e he).1), show (placed _ e).entry.name = e.name from rfl, w1]

/-- C65 for version 1: the whole file, from its first byte.  What the author put into the archive is what the user finds. -/
theorem C65_v1 : ∃ M : Maps, M.Ok ∧ ∀ (C : ChaCha) (ks2 : Nat → Byte) (h : Head1) (name : List Char) (H : MsHeader) (es : List MsEntry)
    (gap pad rest : Bytes) (files : List (List Char × MsItem)),
    h.Ok name → name ≠ [] → h.result name = .ok H → i32At h.plain 5 = es.length → gap.length = 30 + 3 * nameSum name % 212 →
    (∀ e ∈ es, EntryOk e ∧ 0 ≤ e.startPos ∧ 0 ≤ e.sizeAligned ∧ e.unk3 = 0 ∧ e.unk4 = 0) →
    ((es.flatMap fields1).flatten ++ pad).length = roundUp 4 (es.flatMap fields1).flatten.length →
    ∀ buf, buf = h.bytes M name ++ gap ++ encrypt (keyWord M (signedKey (key2 (utf8EncStr (lower name ++ byteText h.chars)) 16))) 0 ((es.flatMap fields1).flatten ++ pad) ++ rest →
    buf.length < 2 ^ 63 →
    All2 (Writes1 M (byteText h.chars) buf ((h.bytes M name ++ gap).length + roundUp 4 (es.flatMap fields1).flatten.length)) es files →
    (∀ x ∈ files, MsStored .wrap ks2 x) →
    ∃ f, msOpen .wrap C buf name = .ok f ∧ ∃ N, ∀ fuel, N ≤ fuel →
      MsReadsBack (msContent .wrap C ks2 fuel f) (msReader .wrap ks2 files) (msTree files) := by
  refine ⟨Snow.maps, Snow.maps_ok, fun C ks2 h name H es gap pad rest files hok hn hH hc hg hes hpad buf hbuf hlen hw hs => ?_⟩
  obtain ⟨f, ims, h1, h2, h3⟩ := ms1_images C h name H es gap pad rest files hok hn hH hc hg hes hpad buf hbuf hlen hw
  exact ⟨f, h1, C65_archive .wrap C ks2 f ims files h2 h3 hs⟩

/-- a file of version 2 that is opened as such: its images are decrypted -/
theorem ms2_images (C : ChaCha) (hC : Blocks64 C) (h : Head2) (name : List Char) (es : List MsEntry) (pre rest : Bytes)
    (files : List (List Char × MsItem)) (hn : name ≠ [])
    (hc : (h.result C name).entryCount = es.length) (hpre : pre.length = randCount name + 5 + 2 * h.salt.length + 72 + 3 * nameSum name % 212)
    (hes : ∀ e ∈ es, EntryOk e ∧ 0 ≤ e.startPos ∧ 0 ≤ e.sizeAligned ∧ ((∀ c ∈ e.name, c.toNat < 128) ∨ 32 ≤ e.name.length)) (hrest : 63 ≤ rest.length)
    (hbuf : h.bytes = pre ++ restartEncrypt (C (xorBase (key2 (utf8EncStr (lower name ++ byteText h.chars)) 32)) (List.replicate 12 0#8)) 0 0 (es.flatMap fields2) ++ rest)
    (hlen : h.bytes.length < 2 ^ 63)
    (hw : All2 (Writes2 C (byteText h.chars) h.bytes (pre.length + roundUp 64 (es.flatMap fields2).flatten.length)) es files) :
    ∃ ims, MsFile.parse .wrap C ⟨h.bytes, h.result C name⟩ = .ok ims ∧
      All2 (fun im (x : List Char × MsItem) => MsFile.toWzImage .wrap C ⟨h.bytes, h.result C name⟩ im = .ok ⟨x.1, x.2.data, x.2.data.length⟩) ims files := by
  refine ⟨es.map (placed (pre.length + roundUp 64 (es.flatMap fields2).flatten.length)), ?_, ?_⟩
  · unfold MsFile.parse
    dsimp only
    rw [if_neg (show ¬ (h.result C name).msVersion = 1 from by show ¬ 2 = 1; decide), if_pos (show (h.result C name).msVersion = 2 from rfl),
      show pre.length = (h.result C name).estart from hpre]
    exact parseV2_table .wrap C hC ⟨h.bytes, h.result C name⟩ es pre rest (by
      intro h0
      have := (List.append_eq_nil_iff.mp h0).1
      unfold lower at this
      exact hn (List.map_eq_nil_iff.mp this)) (.inl rfl) hc hpre (fun e he => ⟨(hes e he).1, (hes e he).2.1, (hes e he).2.2.1⟩) hrest hbuf hlen
  · refine all2_map (fun e x he hx => ?_) hw
    obtain ⟨w1, w2, w3, pre', fill, post, w4, w5, w6⟩ := hx
    have hd := C42_data_v2_partial .wrap C (placed (pre.length + roundUp 64 (es.flatMap fields2).flatten.length) e) (byteText h.chars) pre' (x.2.data ++ fill) post
      x.2.data.length w2 (hes e he).2.2.2 _ rfl (sits_written w3 w5 w6 (encryptHead_length _ _ _)) (by rw [show (placed _ e).entry.name = e.name from rfl, show (placed _ e).entry.key = e.key from rfl, ← w4]; exact hlen)
    rw [show (placed _ e).entry.name = e.name from rfl, show (placed _ e).entry.key = e.key from rfl, ← w4, List.take_left' rfl] at hd
    unfold MsFile.toWzImage
    dsimp only
    rw [if_neg (show ¬ (h.result C name).msVersion = 1 from by show ¬ 2 = 1; decide), if_pos (show (h.result C name).msVersion = 2 from rfl),
      show (h.result C name).keySalt = byteText h.chars from rfl, hd]
    show Except.ok _ = Except.ok _
    rw [show (placed _ e).entry.size = e.size from rfl, asUsize_size w3 (entry_size (hes e he).1), show (placed _ e).entry.name = e.name from rfl, w1]

/-- C65 for version 2, for files that are opened as such (see `C41_open_v2_partial`).
`_partial`: for the names that have a key (see `C42_key_v2_panic`). -/
theorem C65_v2_partial (C : ChaCha) (hC : Blocks64 C) (ks2 : Nat → Byte) (h : Head2) (name : List Char) (es : List MsEntry) (pre rest : Bytes)
    (files : List (List Char × MsItem)) (hn : name ≠ []) (ho : msOpen .wrap C h.bytes name = .ok ⟨h.bytes, h.result C name⟩)
    (hc : (h.result C name).entryCount = es.length) (hpre : pre.length = randCount name + 5 + 2 * h.salt.length + 72 + 3 * nameSum name % 212)
    (hes : ∀ e ∈ es, EntryOk e ∧ 0 ≤ e.startPos ∧ 0 ≤ e.sizeAligned ∧ ((∀ c ∈ e.name, c.toNat < 128) ∨ 32 ≤ e.name.length)) (hrest : 63 ≤ rest.length)
    (hbuf : h.bytes = pre ++ restartEncrypt (C (xorBase (key2 (utf8EncStr (lower name ++ byteText h.chars)) 32)) (List.replicate 12 0#8)) 0 0 (es.flatMap fields2) ++ rest)
    (hlen : h.bytes.length < 2 ^ 63)
    (hw : All2 (Writes2 C (byteText h.chars) h.bytes (pre.length + roundUp 64 (es.flatMap fields2).flatten.length)) es files)
    (hs : ∀ x ∈ files, MsStored .wrap ks2 x) :
    ∃ f, msOpen .wrap C h.bytes name = .ok f ∧ ∃ N, ∀ fuel, N ≤ fuel →
      MsReadsBack (msContent .wrap C ks2 fuel f) (msReader .wrap ks2 files) (msTree files) := by
  obtain ⟨ims, h2, h3⟩ := ms2_images C hC h name es pre rest files hn hc hpre hes hrest hbuf hlen hw
  exact ⟨_, ho, C65_archive .wrap C ks2 _ ims files h2 h3 hs⟩

/-! ## an archive of version 1 -/

/-- a header for a file named "hhh" with two entries, salt "kT" -/
def msHead : Head1 := ⟨List.replicate 30 0x11#8, [(0x6B#8, 1#8), (0x54#8, 2#8)], [1#8, 2#8, 3#8], num 50463958 ++ [2#8] ++ num 2 ++ [9#8, 9#8, 9#8]⟩

theorem msHead_ok : msHead.Ok ['h', 'h', 'h'] := ⟨by decide, by decide, by decide, by decide⟩

/-- the entries: an image at once, a text 1024 bytes further -/
def msEntries : List MsEntry :=
  [⟨['a', '/', 'b'], 0, 0, 0, 18, 1024, 0, 0, List.replicate 16 1#8, 0, 0⟩, ⟨"t.txt".toList, 0, 0, 1, 3, 1024, 0, 0, List.replicate 16 1#8, 0, 0⟩]

/-- what is in them -/
def msFiles : List (List Char × MsItem) :=
  [(['a', '/', 'b'], ⟨propImg58, .image [(['n'], .node (.int 5) [])]⟩), ("t.txt".toList, ⟨[0x73#8, 0x61#8, 0x79#8], .text [0x73#8, 0x61#8, 0x79#8]⟩)]

def msGap : Bytes := List.replicate 118 0#8

/-- a block of 1024 bytes with the data -/
def msBlock (M : Maps) (name : List Char) (data : Bytes) : Bytes :=
  encryptTwice (keyWord M (signedKey (imageKey1 ['k', 'T'] name (List.replicate 16 1#8)))) (data ++ List.replicate (1024 - data.length) 0#8)

def msRest (M : Maps) : Bytes := List.replicate 744 0#8 ++ msBlock M ['a', '/', 'b'] propImg58 ++ msBlock M "t.txt".toList [0x73#8, 0x61#8, 0x79#8]

def msBytes (M : Maps) : Bytes :=
  msHead.bytes M ['h', 'h', 'h'] ++ msGap ++
    encrypt (keyWord M (signedKey (key2 (utf8EncStr (lower ['h', 'h', 'h'] ++ byteText msHead.chars)) 16))) 0 ((msEntries.flatMap fields1).flatten ++ []) ++ msRest M

theorem msBlock_length (M : Maps) (name : List Char) (data : Bytes) (h : data.length ≤ 1024) : (msBlock M name data).length = 1024 := by
  unfold msBlock
  rw [encryptTwice_length, List.length_append, List.length_replicate]
  omega

theorem msHead_length (M : Maps) : (msHead.bytes M ['h', 'h', 'h']).length = 50 := by
  unfold Head1.bytes
  rw [List.length_append, encrypt_length]
  decide +kernel

theorem msTable_length : (msEntries.flatMap fields1).flatten.length = 112 := by decide +kernel

theorem msBytes_length (M : Maps) : (msBytes M).length < 2 ^ 63 := by
  have h1 := msBlock_length M ['a', '/', 'b'] propImg58 (by decide)
  have h2 := msBlock_length M "t.txt".toList [0x73#8, 0x61#8, 0x79#8] (by decide)
  unfold msBytes msRest msGap
  simp only [List.length_append, encrypt_length, msTable_length, msHead_length, h1, h2, List.length_replicate, List.length_nil]
  decide

theorem msFiles_stored (m : Mode) (ks2 : Nat → Byte) : ∀ x ∈ msFiles, MsStored m ks2 x := by
  intro x hx
  rcases List.mem_cons.mp hx with rfl | hx
  · refine ⟨by decide, propImg_stored rfl (fun h => absurd (endsWith_iff.mpr h) (by decide)) ?_⟩
    exact ⟨[], [], by simp [plainReader], rfl⟩
  · rw [List.mem_singleton.mp hx]
    refine ⟨by decide, .text _ (endsWith_iff.mp (by decide)) (by decide) rfl ?_⟩
    exact ⟨[], [], by simp [plainReader], rfl⟩

theorem msFiles_written (M : Maps) : All2 (Writes1 M (byteText msHead.chars) (msBytes M)
    ((msHead.bytes M ['h', 'h', 'h'] ++ msGap).length + roundUp 4 (msEntries.flatMap fields1).flatten.length)) msEntries msFiles := by
  have hE : (msHead.bytes M ['h', 'h', 'h'] ++ msGap).length + roundUp 4 (msEntries.flatMap fields1).flatten.length = 280 := by
    rw [List.length_append, msHead_length, msTable_length]
    decide
  have hsalt : byteText msHead.chars = ['k', 'T'] := by decide
  have h1 := msBlock_length M ['a', '/', 'b'] propImg58 (by decide)
  have h2 := msBlock_length M "t.txt".toList [0x73#8, 0x61#8, 0x79#8] (by decide)
  rw [hE, hsalt]
  refine .cons ⟨rfl, by decide, by decide, msHead.bytes M ['h', 'h', 'h'] ++ msGap ++
      encrypt (keyWord M (signedKey (key2 (utf8EncStr (lower ['h', 'h', 'h'] ++ byteText msHead.chars)) 16))) 0 ((msEntries.flatMap fields1).flatten ++ []) ++
      List.replicate 744 0#8, List.replicate (1024 - propImg58.length) 0#8, msBlock M "t.txt".toList [0x73#8, 0x61#8, 0x79#8], ?_, ?_, by decide +kernel⟩
    (.cons ⟨rfl, by decide, by decide, msHead.bytes M ['h', 'h', 'h'] ++ msGap ++
      encrypt (keyWord M (signedKey (key2 (utf8EncStr (lower ['h', 'h', 'h'] ++ byteText msHead.chars)) 16))) 0 ((msEntries.flatMap fields1).flatten ++ []) ++
      (List.replicate 744 0#8 ++ msBlock M ['a', '/', 'b'] propImg58), List.replicate (1024 - ([0x73#8, 0x61#8, 0x79#8] : Bytes).length) 0#8, [], ?_, ?_, by decide +kernel⟩ .nil)
  · unfold msBytes msRest
    show _ = _ ++ msBlock M ['a', '/', 'b'] propImg58 ++ _
    simp only [List.append_assoc]
  · simp only [List.length_append, encrypt_length, msTable_length, msHead_length, msGap, List.length_replicate, List.length_nil]
    decide
  · unfold msBytes msRest
    show _ = _ ++ msBlock M "t.txt".toList [0x73#8, 0x61#8, 0x79#8] ++ []
    simp only [List.append_assoc, List.append_nil]
  · simp only [List.length_append, encrypt_length, msTable_length, msHead_length, msGap, List.length_replicate, List.length_nil, h1]
    decide

theorem msHead_result : msHead.result ['h', 'h', 'h'] = .ok ⟨['k', 'T'], ['h', 'h', 'h', 'k', 'T'], 50463958, 2, 2, 38, 38 + 42 + 88, 1⟩ := by
  decide +kernel

theorem msEntries_ok : ∀ e ∈ msEntries, EntryOk e ∧ 0 ≤ e.startPos ∧ 0 ≤ e.sizeAligned ∧ e.unk3 = 0 ∧ e.unk4 = 0 := by
  intro e he
  rcases List.mem_cons.mp he with rfl | he
  · exact ⟨⟨by decide, by decide, by decide⟩, by decide, by decide, rfl, rfl⟩
  · rw [List.mem_singleton.mp he]
    exact ⟨⟨by decide, by decide, by decide⟩, by decide, by decide, rfl, rfl⟩

/-- all hypotheses of `C65_v1` are met -/
theorem msBytes_reads : ∃ M : Maps, ∀ (C : ChaCha) (ks2 : Nat → Byte), ∃ f, msOpen .wrap C (msBytes M) ['h', 'h', 'h'] = .ok f ∧
    ∃ fuel, MsReadsBack (msContent .wrap C ks2 fuel f) (msReader .wrap ks2 msFiles) (msTree msFiles) := by
  obtain ⟨M, _, hM⟩ := C65_v1
  refine ⟨M, fun C ks2 => ?_⟩
  obtain ⟨f, h1, N, hN⟩ := hM C ks2 msHead ['h', 'h', 'h'] _ msEntries msGap [] (msRest M) msFiles msHead_ok (by decide) msHead_result (by decide)
    (by decide +kernel) msEntries_ok (by rw [List.append_nil, msTable_length]; decide) (msBytes M) rfl (msBytes_length M) (msFiles_written M)
    (msFiles_stored _ _)
  exact ⟨f, h1, N, hN N (Nat.le_refl _)⟩

/-- a node for it -/
def heapMs : NHeap := [some ⟨['h', 'h', 'h'], .msFile false 0, none, []⟩]

theorem heapMs_new : NewMs heapMs 0 := ⟨_, rfl, rfl, rfl⟩

/-! ## an archive of version 2, with a cipher that does nothing -/

def noCipher : ChaCha := fun _ _ _ => List.replicate 64 0#8

theorem noCipher_blocks : Blocks64 noCipher := fun _ _ _ => List.length_replicate

/-- a text of three bytes -/
def msEntry2 : MsEntry := ⟨"/.txt".toList, 0, 0, 0, 3, 3, 0, 0, List.replicate 16 1#8, 0, 0⟩

def msFiles2 : List (List Char × MsItem) := [("/.txt".toList, ⟨[0x73#8, 0x61#8, 0x79#8], .text [0x73#8, 0x61#8, 0x79#8]⟩)]

/-- the table at 199, the text at 1024 -/
def msHead2 : Head2 := ⟨3#8 :: List.replicate 29 0x91#8, [(0x6B#8, 1#8), (0x54#8, 2#8)], [1#8, 2#8, 3#8],
  num 0 ++ num 1 ++ List.replicate 152 0#8 ++ (fields2 msEntry2).flatten ++ List.replicate 759 0#8 ++ [0x73#8, 0x61#8, 0x79#8]⟩

theorem msHead2_ok : msHead2.Ok ['h', 'h', 'h'] := ⟨by decide, by decide, by decide, by decide +kernel⟩

theorem msHead2_opens : msOpen .wrap noCipher msHead2.bytes ['h', 'h', 'h'] = .ok ⟨msHead2.bytes, msHead2.result noCipher ['h', 'h', 'h']⟩ := by
  have h1 : headerV1 .wrap msHead2.bytes ['h', 'h', 'h'] = .error (.lib "UnsupportedSnowVersion") := by decide +kernel
  unfold msOpen
  rw [h1]
  dsimp only
  rw [headerV2_layout .wrap noCipher noCipher_blocks msHead2 _ msHead2_ok (by decide) (.inl rfl) (.inl rfl)]
  rfl

theorem msFiles2_stored (m : Mode) (ks2 : Nat → Byte) : ∀ x ∈ msFiles2, MsStored m ks2 x := by
  intro x hx
  rw [List.mem_singleton.mp hx]
  refine ⟨by decide, .text _ (endsWith_iff.mp (by decide)) (by decide) rfl ?_⟩
  exact ⟨[], [], by simp [plainReader], rfl⟩

/-- all hypotheses of `C65_v2_partial` are met -/
theorem msHead2_reads (ks2 : Nat → Byte) : ∃ f fuel, msOpen .wrap noCipher msHead2.bytes ['h', 'h', 'h'] = .ok f ∧
    MsReadsBack (msContent .wrap noCipher ks2 fuel f) (msReader .wrap ks2 msFiles2) (msTree msFiles2) := by
  obtain ⟨f, h1, N, hN⟩ := C65_v2_partial noCipher noCipher_blocks ks2 msHead2 ['h', 'h', 'h'] [msEntry2] (msHead2.bytes.take 199) (msHead2.bytes.drop 265)
    msFiles2 (by decide) msHead2_opens (by decide +kernel) (by decide +kernel)
    (by intro e he; rw [List.mem_singleton.mp he]; exact ⟨⟨by decide, by decide, by decide⟩, by decide, by decide, .inl (by decide)⟩)
    (by decide +kernel) (by decide +kernel) (by decide +kernel)
    (.cons ⟨rfl, by decide, by decide, msHead2.bytes.take 1024, [], [], by decide +kernel, by decide +kernel, by decide⟩ .nil)
    (msFiles2_stored .wrap ks2)
  exact ⟨f, N, h1, hN N (Nat.le_refl _)⟩

/-! ## names with slashes -/

/-- The names in an MS archive are paths ("Mob/0100.img").  Such an image is never found by path; the root has it as a child (`C65_archive`). -/
theorem C65_slash (content : Content) (reader : List Char → Env) (g : NHeap) (i : Nat) (arch : List (List Char × ATree))
    (F : FindsMs content reader g i arch) (hs : ∀ x ∈ arch, '/' ∈ x.1) (path : List Char) :
    (g.atPathParsed content i path).1 = .error (.lib "NodeNotFound") := by
  obtain ⟨ns, hp⟩ := pieces_exist path
  cases ns with
  | nil => exact absurd rfl hp.some
  | cons n ns =>
    have hl : lastNamed arch n = none := by
      cases hl : lastNamed arch n with
      | none => rfl
      | some t => exact absurd (hs _ (lastNamed_mem hl)) (hp.clean n List.mem_cons_self)
    have hu : NoUolOn arch (n :: ns) := by
      rw [noUolOn_from, hl]
      trivial
    have := F path n ns hp hu
    rw [arcAt_from, hl] at this
    exact this

/-- it applies to the archive of version 2 above -/
example (ks2 : Nat → Byte) : ∃ f fuel g, heapMs.parse (msContent .wrap noCipher ks2 fuel f) 0 = (.ok (), g) ∧
    (g.at 0 "/.txt".toList).isSome = true ∧ ∀ path, (g.atPathParsed (msContent .wrap noCipher ks2 fuel f) 0 path).1 = .error (.lib "NodeNotFound") := by
  obtain ⟨f, fuel, _, hR⟩ := msHead2_reads ks2
  obtain ⟨g, h2, hg⟩ := hR heapMs 0 heapMs_new
  obtain ⟨F, K⟩ := hg [] (fun _ h => by cases h)
  refine ⟨f, fuel, g, h2, ?_, C65_slash _ _ g 0 _ F (by intro x hx; rw [List.mem_singleton.mp hx]; decide)⟩
  obtain ⟨k, k1, _⟩ := K "/.txt".toList
  have : g.at 0 "/.txt".toList = some k := k1
  rw [this]; rfl

/-- In the archive of version 1 above "a/b" is a child of the root, and there is 5 in its property "n"; but there is nothing at the path "a/b", nor at
"a/b/n". -/
theorem C65_slash_counterexample : ∃ M : Maps, ∀ (C : ChaCha) (ks2 : Nat → Byte), ∃ f fuel g,
    msOpen .wrap C (msBytes M) ['h', 'h', 'h'] = .ok f ∧ heapMs.parse (msContent .wrap C ks2 fuel f) 0 = (.ok (), g) ∧
    (g.atPathParsed (msContent .wrap C ks2 fuel f) 0 "a/b".toList).1 = .error (.lib "NodeNotFound") ∧
    (g.atPathParsed (msContent .wrap C ks2 fuel f) 0 "a/b/n".toList).1 = .error (.lib "NodeNotFound") ∧
    (∃ k g' j g'' c, g.at 0 "a/b".toList = some k ∧ g.parse (msContent .wrap C ks2 fuel f) k = (.ok (), g') ∧
      g'.atPathParsed (msContent .wrap C ks2 fuel f) k ['n'] = (.ok j, g'') ∧ g''.cell j = some c ∧ c.name = ['n'] ∧
      KindShows (plainReader .wrap ks2 propImg58) c.kind (.prop (.int 5))) ∧
    ∃ j g' c, g.atPathParsed (msContent .wrap C ks2 fuel f) 0 "t.txt/text.txt".toList = (.ok j, g') ∧ g'.cell j = some c ∧
      KindShows (plainReader .wrap ks2 [0x73#8, 0x61#8, 0x79#8]) c.kind (.prop (.raw [0x73#8, 0x61#8, 0x79#8])) := by
  obtain ⟨M, hM⟩ := msBytes_reads
  refine ⟨M, fun C ks2 => ?_⟩
  obtain ⟨f, h1, fuel, hR⟩ := hM C ks2
  obtain ⟨g, h2, hg⟩ := hR heapMs 0 heapMs_new
  obtain ⟨F, K⟩ := hg [] (fun _ h => by cases h)
  refine ⟨f, fuel, g, h1, h2, ?_, ?_, ?_, ?_⟩
  · exact F "a/b".toList ['a'] [['b']] (pieces_iff.2 (by decide)) (by rw [noUolOn_from]; trivial)
  · exact F "a/b/n".toList ['a'] [['b'], ['n']] (pieces_iff.2 (by decide)) (by rw [noUolOn_from]; trivial)
  · obtain ⟨k, k1, k2⟩ := K "a/b".toList
    obtain ⟨g', k3, k4⟩ := k2 (by intro ps h; cases h; exact .cons _ _ _ _ (by simp) .nil .nil)
    obtain ⟨j, g'', c, k5, k6, k7, k8⟩ := k4 ['n'] [['n']] (pieces_iff.2 (by decide))
    exact ⟨k, g', j, g'', c, k1, k3, k5, k6, by simpa using k7.symm, k8⟩
  · obtain ⟨j, g', c, k1, k2, _, k3⟩ := F "t.txt/text.txt".toList "t.txt".toList ["text.txt".toList] (pieces_iff.2 (by decide)) (by rw [noUolOn_from]; exact trivial)
    refine ⟨j, g', c, k1, k2, ?_⟩
    generalize hk : c.kind = kk at k3
    cases k3 with
    | kind _ _ h => exact h

end Wz.Props
