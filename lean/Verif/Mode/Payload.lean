import Verif.Mode.File
import Verif.Media.PayloadModel
import Verif.Media.SoundModel
import Verif.Media.LuaModel
import Verif.Png.Model
import Verif.Reader.FreeModel
import Verif.Ms.FileModel
/-!
# Sounds, pictures, texts and MS archives with and without overflow checks
-/

set_option autoImplicit false

namespace Wz

theorem rawBuffer_ag (b : Bytes) (o n : Nat) : AgE (rawBuffer .checked b o n) (rawBuffer .wrap b o n) := by unfold rawBuffer; ag

theorem videoBuffer_ag (b : Bytes) (o n : Nat) : AgE (videoBuffer .checked b o n) (videoBuffer .wrap b o n) := by unfold videoBuffer; ag

theorem wavHeader_ag (b : Bytes) (s : Sound) : AgE (s.wavHeader .checked b) (s.wavHeader .wrap b) := by unfold Sound.wavHeader; ag
macro_rules | `(tactic| ag_step) => `(tactic| with_reducible exact wavHeader_ag _ _)

theorem soundBuffer_ag (b : Bytes) (s : Sound) : AgE (s.getBuffer .checked b) (s.getBuffer .wrap b) := by unfold Sound.getBuffer; ag

theorem soundWrite_ag {σ : Type} (put : σ → Bytes → Except Err σ) (b : Bytes) (s : Sound) (w : σ) :
    AgE (s.writeTo put .checked b w) (s.writeTo put .wrap b w) := by unfold Sound.writeTo; ag

theorem luaGuess_ag (aes : Aes) (b : Bytes) (o n : Nat) (g : GlobalKeys) : AgE (luaGuess aes .checked b o n g) (luaGuess aes .wrap b o n g) := by
  unfold luaGuess; ag
macro_rules | `(tactic| ag_step) => `(tactic| with_reducible exact luaGuess_ag _ _ _ _ _)

theorem extractLua_ag (aes : Aes) (b : Bytes) (o n : Nat) (g : GlobalKeys) : AgE (extractLua aes .checked b o n g) (extractLua aes .wrap b o n g) := by
  unfold extractLua; ag

/-! ## Pictures -/

theorem pngFormat_ag (p : Png) : AgE (p.format .checked) (p.format .wrap) := by unfold Png.format; ag
macro_rules | `(tactic| ag_step) => `(tactic| with_reducible exact pngFormat_ag _)

theorem mul3_ag (a b c : Nat) : AgE (mul3 .checked a b c) (mul3 .wrap a b c) := by unfold mul3; ag
macro_rules | `(tactic| ag_step) => `(tactic| with_reducible exact mul3_ag _ _ _)

theorem fmtSize_ag (f : Fmt) (w h : Nat) : AgE (f.buffSize .checked w h) (f.buffSize .wrap w h) := by
  unfold Fmt.buffSize; cases f <;> dsimp only <;> ag
macro_rules | `(tactic| ag_step) => `(tactic| with_reducible exact fmtSize_ag _ _ _)

theorem pngSize_ag (p : Png) : AgE (p.buffSize .checked) (p.buffSize .wrap) := by unfold Png.buffSize; ag
macro_rules | `(tactic| ag_step) => `(tactic| with_reducible exact pngSize_ag _)

theorem rawChunks_ag (aes : Aes) (b : Bytes) (stop n o : Nat) (acc : Bytes) (keys : Ecb) :
    AgE (rawChunks aes .checked b stop n o acc keys) (rawChunks aes .wrap b stop n o acc keys) := by
  induction n generalizing o acc keys with
  | zero =>
    rw [rawChunks, rawChunks]
    exact .ite (fun _ => .same _) fun _ => .same _
  | succ n ih =>
    rw [rawChunks, rawChunks]
    refine .ite (fun _ => ?_) fun _ => .same _
    cases readAt b 4 o with
    | error e => exact .same _
    | ok v =>
      dsimp only
      rcases addU_ag (o + 4) (asUsize (signed 32 v)) with h | h
      · rw [h]; exact .inl rfl
      rw [h]
      cases addU .wrap (o + 4) (asUsize (signed 32 v)) with
      | error e => exact .same _
      | ok last =>
        dsimp only
        cases sliceIdx b (o + 4) last with
        | error e => exact .same _
        | ok data =>
          dsimp only
          cases keys.ensure aes data.length with
          | error e => exact .same _
          | ok keys =>
            dsimp only
            cases keys.decrypt data with
            | error e => exact .same _
            | ok out => exact ih _ _ _
macro_rules | `(tactic| ag_step) => `(tactic| with_reducible exact rawChunks_ag _ _ _ _ _ _ _)

theorem rawData_ag (inflate : Inflate) (aes : Aes) (b : Bytes) (p : Png) (data : Bytes) (keys : Ecb) :
    AgE (p.rawData inflate aes .checked b data keys) (p.rawData inflate aes .wrap b data keys) := by
  unfold Png.rawData
  refine .bind (pngSize_ag p) fun cap => ?_
  dsimp only
  generalize (if p.hasZlibHeader then inflate true data cap else .error (.lib "UnsupportedHeader") : Except Err Bytes) = first
  cases first <;> dsimp only <;> ag
macro_rules | `(tactic| ag_step) => `(tactic| with_reducible exact rawData_ag _ _ _ _ _ _)

theorem genImage_ag {α : Type} (w h : Nat) (f g : Nat → Nat → Except Err α) (hf : ∀ x y, AgE (f x y) (g x y)) :
    AgE (genImage w h f) (genImage w h g) := .mapM fun y => .mapM fun x => hf x y

theorem pixelPos_ag (w x y k : Nat) : AgE (pixelPos .checked w x y k) (pixelPos .wrap w x y k) := by unfold pixelPos; ag
macro_rules | `(tactic| ag_step) => `(tactic| with_reducible exact pixelPos_ag _ _ _ _)

theorem imageBgra4444_ag (px : Bytes) (w h : Nat) : AgE (imageBgra4444 .checked px w h) (imageBgra4444 .wrap px w h) := by
  refine genImage_ag _ _ _ _ fun x y => ?_; ag
theorem imageBgra8888_ag (px : Bytes) (w h : Nat) : AgE (imageBgra8888 .checked px w h) (imageBgra8888 .wrap px w h) := by
  refine genImage_ag _ _ _ _ fun x y => ?_; ag
theorem imageRgb565_ag (px : Bytes) (w h : Nat) : AgE (imageRgb565 .checked px w h) (imageRgb565 .wrap px w h) := by
  refine genImage_ag _ _ _ _ fun x y => ?_; ag
theorem imageArgb1555_ag (px : Bytes) (w h : Nat) : AgE (imageArgb1555 .checked px w h) (imageArgb1555 .wrap px w h) := by
  refine genImage_ag _ _ _ _ fun x y => ?_; ag
theorem imageR16_ag (px : Bytes) (w h : Nat) : AgE (imageR16 .checked px w h) (imageR16 .wrap px w h) := by
  refine genImage_ag _ _ _ _ fun x y => ?_; ag
theorem imageRgba1010102_ag (px : Bytes) (w h : Nat) : AgE (imageRgba1010102 .checked px w h) (imageRgba1010102 .wrap px w h) := by
  refine genImage_ag _ _ _ _ fun x y => ?_; ag

theorem pixels517_ag (px : Bytes) (w h : Nat) : AgE (pixels517 .checked px w h) (pixels517 .wrap px w h) := by
  unfold pixels517
  refine .bind (mulU32_ag _ _) fun a => .bind (mulU32_ag _ _) fun n => .bind (.foldlM (fun s j => ?_) _) fun _ => .same _
  unfold row517
  ag

theorem decodePixels_ag (bc7 : Bc7) (f : Fmt) (px : Bytes) (w h : Nat) : AgE (decodePixels bc7 .checked f px w h) (decodePixels bc7 .wrap f px w h) := by
  unfold decodePixels
  cases f <;> dsimp only
  case bgra4444 => exact .map _ (imageBgra4444_ag _ _ _)
  case bgra8888 => exact .map _ (imageBgra8888_ag _ _ _)
  case argb1555 => exact .map _ (imageArgb1555_ag _ _ _)
  case rgb565 => exact .map _ (imageRgb565_ag _ _ _)
  case rgb565_517 => exact .bind (pixels517_ag _ _ _) fun _ => .map _ (imageRgb565_ag _ _ _)
  case r16 => exact .map _ (imageR16_ag _ _ _)
  case rgba1010102 => exact .map _ (imageRgba1010102_ag _ _ _)
  all_goals exact .same _
macro_rules | `(tactic| ag_step) => `(tactic| with_reducible exact decodePixels_ag _ _ _ _ _)

theorem pngExtract_ag (inflate : Inflate) (bc7 : Bc7) (aes : Aes) (b : Bytes) (p : Png) (keys : Ecb) :
    AgE (p.extract inflate bc7 aes .checked b keys) (p.extract inflate bc7 aes .wrap b keys) := by unfold Png.extract; ag

/-- one picture without the feature `rayon` -/
theorem dxtSeq_ag (alpha : Bytes → Except Err (List Byte)) (px : Bytes) (w h : Nat) :
    AgE (dxtImageSeq alpha .checked px w h) (dxtImageSeq alpha .wrap px w h) := by
  unfold dxtImageSeq
  refine .foldlM (fun img xy => ?_) _
  unfold dxtPutBlock
  ag

/-! ## The free functions -/

theorem addInt32_ag (a b : Int) : AgE (addInt32 .checked a b) (addInt32 .wrap a b) := by
  unfold addInt32; split
  · exact .same _
  · exact .inl rfl
macro_rules | `(tactic| ag_step) => `(tactic| with_reducible exact addInt32_ag _ _)

theorem freeBytes_ag (b : Bytes) (o n i : Nat) : AgE (freeBytes .checked b o n i) (freeBytes .wrap b o n i) := by
  induction n generalizing i with
  | zero => exact .same _
  | succ n ih =>
    rw [freeBytes, freeBytes]
    refine .bind (addU_ag _ _) fun p => ?_
    cases b[p]? with
    | none => exact .same _
    | some v => exact .bind (ih _) fun _ => .same _

theorem freeStringByLen_ag (b : Bytes) (n : Nat) (o : Option Nat) : AgE (freeStringByLen .checked b n o) (freeStringByLen .wrap b n o) :=
  .bind (freeBytes_ag _ _ _ _) fun _ => .same _

theorem freeWzInt_ag (w : Nat) (b : Bytes) (o : Option Nat) : AgE (freeWzInt .checked w b o) (freeWzInt .wrap w b o) := by
  unfold freeWzInt; ag

theorem freeUnits_ag (b : Bytes) (o : Int) (n i : Nat) : AgE (freeUnits .checked b o n i) (freeUnits .wrap b o n i) := by
  induction n generalizing i with
  | zero => exact .same _
  | succ n ih =>
    rw [freeUnits, freeUnits]
    refine .bind ?_ fun _ => .bind (ih _) fun _ => .same _
    unfold freeUnit
    ag

theorem freeChars_ag (b : Bytes) (o : Int) (n i : Nat) : AgE (freeChars .checked b o n i) (freeChars .wrap b o n i) := by
  induction n generalizing i with
  | zero => exact .same _
  | succ n ih =>
    rw [freeChars, freeChars]
    refine .bind ?_ fun _ => .bind (ih _) fun _ => .same _
    unfold freeChar
    ag
macro_rules | `(tactic| ag_step) => `(tactic| with_reducible exact freeUnits_ag _ _ _ _)
macro_rules | `(tactic| ag_step) => `(tactic| with_reducible exact freeChars_ag _ _ _ _)

theorem freeUnicodeString_ag (b : Bytes) (n : Int) : AgE (freeUnicodeString .checked b n) (freeUnicodeString .wrap b n) := by
  unfold freeUnicodeString; dsimp only; ag

theorem freeAsciiString_ag (b : Bytes) (n : Int) : AgE (freeAsciiString .checked b n) (freeAsciiString .wrap b n) := by
  unfold freeAsciiString; dsimp only; ag
macro_rules | `(tactic| ag_step) => `(tactic| with_reducible exact freeUnicodeString_ag _ _)
macro_rules | `(tactic| ag_step) => `(tactic| with_reducible exact freeAsciiString_ag _ _)

theorem freeWzString_ag (b : Bytes) : AgE (freeWzString .checked b) (freeWzString .wrap b) := by unfold freeWzString; ag
macro_rules | `(tactic| ag_step) => `(tactic| with_reducible exact freeWzString_ag _)

theorem freeWzStringBlock_ag (b : Bytes) (o : Nat) : AgE (freeWzStringBlock .checked b o) (freeWzStringBlock .wrap b o) := by unfold freeWzStringBlock; ag

/-! ## MS archives -/

theorem u8_ag (v : Int) : AgE (u8 .checked v) (u8 .wrap v) := by
  unfold u8; split
  · exact .same _
  · exact .inl rfl
macro_rules | `(tactic| ag_step) => `(tactic| with_reducible exact u8_ag _)

theorem mulU_ag (a b : Nat) : AgE (mulU .checked a b) (mulU .wrap a b) := by
  unfold mulU; split
  · exact .same _
  · exact .inl rfl
macro_rules | `(tactic| ag_step) => `(tactic| with_reducible exact mulU_ag _ _)

theorem subI32_ag (a b : Int) : AgE (subI32 .checked a b) (subI32 .wrap a b) := by
  unfold subI32; split
  · exact .same _
  · exact .inl rfl
macro_rules | `(tactic| ag_step) => `(tactic| with_reducible exact subI32_ag _ _)

theorem tabulateM_ag {α : Type} {f g : Nat → Except Err α} (h : ∀ i, AgE (f i) (g i)) (n : Nat) : AgE (tabulateM f n) (tabulateM g n) := by
  induction n with
  | zero => exact .same _
  | succ n ih => exact .bind ih fun _ => .bind (h n) fun _ => .same _

theorem headerKeyV1_ag (b : Bytes) : AgE (headerKeyV1 .checked b) (headerKeyV1 .wrap b) := by
  unfold headerKeyV1; refine tabulateM_ag (fun i => ?_) _; ag
macro_rules | `(tactic| ag_step) => `(tactic| with_reducible exact headerKeyV1_ag _)

theorem headerKeyV2_ag (b : Bytes) : AgE (headerKeyV2 .checked b) (headerKeyV2 .wrap b) := by
  unfold headerKeyV2; refine tabulateM_ag (fun i => ?_) _; ag
macro_rules | `(tactic| ag_step) => `(tactic| with_reducible exact headerKeyV2_ag _)

theorem expectedHash_ag (a : Int) (v : Nat) (c s : Int) : AgE (expectedHash .checked a v c s) (expectedHash .wrap a v c s) := by
  unfold expectedHash; ag
macro_rules | `(tactic| ag_step) => `(tactic| with_reducible exact expectedHash_ag _ _ _ _)

theorem headerV1_ag (b : Bytes) (name : List Char) : AgE (headerV1 .checked b name) (headerV1 .wrap b name) := by
  unfold headerV1; dsimp only; ag

theorem saltV2_ag (r s : Bytes) (n : Nat) : AgE (saltV2 .checked r s n) (saltV2 .wrap r s n) := by
  unfold saltV2; refine tabulateM_ag (fun i => ?_) _; unfold saltCharV2; ag
macro_rules | `(tactic| ag_step) => `(tactic| with_reducible exact saltV2_ag _ _ _)

theorem headerV2_ag (C : ChaCha) (b : Bytes) (name : List Char) : AgE (headerV2 .checked C b name) (headerV2 .wrap C b name) := by
  unfold headerV2; dsimp only; ag

theorem msOpen_ag (C : ChaCha) (b : Bytes) (name : List Char) : AgE (msOpen .checked C b name) (msOpen .wrap C b name) := by
  unfold msOpen
  rcases headerV1_ag b name with h | h
  · rw [h]; exact .inl rfl
  rw [h]
  cases headerV1 .wrap b name with
  | ok h => exact .same _
  | error e =>
    refine .ite (fun _ => .same _) fun _ => ?_
    rcases headerV2_ag C b name with h | h
    · rw [h]; exact .inl rfl
    · rw [h]; exact .same _

theorem snowWrite_ag (r : SnowRd) (n : Nat) : AgE (r.writeBytes .checked n) (r.writeBytes .wrap n) := by
  unfold SnowRd.writeBytes; dsimp only; ag
macro_rules | `(tactic| ag_step) => `(tactic| with_reducible exact snowWrite_ag _ _)

theorem snowRead_ag (r : SnowRd) (n : Nat) : AgE (r.readBytes .checked n) (r.readBytes .wrap n) := by
  unfold SnowRd.readBytes; ag
macro_rules | `(tactic| ag_step) => `(tactic| with_reducible exact snowRead_ag _ _)

theorem snowUtf16_ag (r : SnowRd) (n : Nat) : AgE (r.readUtf16 .checked n) (r.readUtf16 .wrap n) := by
  unfold SnowRd.readUtf16; ag
macro_rules | `(tactic| ag_step) => `(tactic| with_reducible exact snowUtf16_ag _ _)

theorem entryKeyByte_ag (b : Bytes) (i : Nat) : AgE (entryKeyByte .checked b i) (entryKeyByte .wrap b i) := by
  unfold entryKeyByte; ag
macro_rules | `(tactic| ag_step) => `(tactic| with_reducible exact entryKeyByte_ag _ _)

theorem entryV1_ag (r : SnowRd) : AgE (entryV1 .checked r) (entryV1 .wrap r) := by unfold entryV1; dsimp only; ag

theorem entryV2_ag (r : ChaRd) : AgE (entryV2 .checked r) (entryV2 .wrap r) := by unfold entryV2; dsimp only; ag

theorem entries_ag {ρ : Type} {f g : ρ → Except Err (MsEntry × ρ)} (h : ∀ r, AgE (f r) (g r)) (n : Nat) (r : ρ) : AgE (entries f n r) (entries g n r) := by
  induction n generalizing r with
  | zero => exact .same _
  | succ n ih => exact .bind (h r) fun _ => .bind (ih _) fun _ => .same _

theorem alignKilo_ag (p : Nat) : AgE (alignKilo .checked p) (alignKilo .wrap p) := by unfold alignKilo; ag
macro_rules | `(tactic| ag_step) => `(tactic| with_reducible exact alignKilo_ag _)

theorem place_ag (d : Nat) (im : MsImage) : AgE (im.place .checked d) (im.place .wrap d) := by unfold MsImage.place; ag

theorem placeAll_ag (d : Nat) (es : List MsEntry) : AgE (placeAll .checked d es) (placeAll .wrap d es) := by
  induction es with
  | nil => exact .same _
  | cons e es ih => exact .bind (place_ag _ _) fun _ => .bind ih fun _ => .same _
macro_rules | `(tactic| ag_step) => `(tactic| with_reducible exact placeAll_ag _ _)

theorem msParse_ag (C : ChaCha) (f : MsFile) : AgE (f.parse .checked C) (f.parse .wrap C) := by
  unfold MsFile.parse
  refine .ite (fun _ => ?_) fun _ => .ite (fun _ => ?_) fun _ => .same _
  · unfold MsFile.parseV1
    refine .bind (tabulateM_ag (fun i => entryKeyByte_ag _ _) _) fun key => ?_
    dsimp only
    refine .bind (.same _) fun _ => .bind (entries_ag entryV1_ag _ _) fun _ => ?_
    ag
  · unfold MsFile.parseV2
    refine .ite (fun _ => .same _) fun _ => .bind (tabulateM_ag (fun i => ?_) _) fun key => ?_
    · ag
    dsimp only
    refine .bind (.same _) fun _ => .bind (entries_ag entryV2_ag _ _) fun _ => ?_
    ag

theorem toWzImage_ag (C : ChaCha) (f : MsFile) (im : MsImage) : AgE (f.toWzImage .checked C im) (f.toWzImage .wrap C im) := by
  unfold MsFile.toWzImage imageDataV1 imageDataV2
  dsimp only
  ag

end Wz
