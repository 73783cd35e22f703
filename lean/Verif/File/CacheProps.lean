import Verif.File.Props
/-!
# C44: the cache and the result; the key and the result; whole files
-/

set_option autoImplicit false

namespace Wz.Props
open Spec

theorem mem_candidates {h : Header} {cache cands : List Cached} (hc : Candidates h cache cands) (c : Cached) :
    c ∈ cands ↔ (c ∈ cache ∧ Fits h c) ∨ (c.profile ∈ rows h.isPkg2_64 ∧ Listed c.profile.gen h.hash1 h.hash2 c.hash) := by
  classical
  obtain ⟨lists, hl, rfl⟩ := hc
  rw [List.mem_append]
  have hf : c ∈ cache.filter (fun c => Fits h c) ↔ c ∈ cache ∧ Fits h c := by
    rw [List.mem_filter]; simp only [decide_eq_true_eq]
  rw [hf]
  clear hf
  refine or_congr Iff.rfl ?_
  generalize rows h.isPkg2_64 = ps at hl
  induction hl with
  | nil => simp
  | @cons p hs ps lists h1 h2 ih =>
    rw [List.zipWith_cons_cons, List.flatten_cons, List.mem_append, ih, List.mem_cons]
    constructor
    · rintro (hm | ⟨a, b⟩)
      · obtain ⟨t, ht, rfl⟩ := List.mem_map.mp hm
        exact ⟨.inl rfl, (h1.2 t).mp ht⟩
      · exact ⟨.inr a, b⟩
    · rintro ⟨a | a, b⟩
      · left
        refine List.mem_map.mpr ⟨c.hash, (h1.2 _).mpr (a ▸ b), ?_⟩
        rw [← a]
      · exact .inr ⟨a, b⟩

theorem first_open {F : Fuel} {f : WFile} {cands : List Cached} (h : ∀ c ∈ cands, (∃ k, Opens F f c k) ∨ Refused F f c) :
    (∀ c ∈ cands, Refused F f c) ∨
    ∃ before c after k, cands = before ++ c :: after ∧ (∀ b ∈ before, Refused F f b) ∧ Opens F f c k := by
  induction cands with
  | nil => exact .inl fun c hc => by (cases hc)
  | cons c cs ih =>
    rcases h c List.mem_cons_self with ⟨k, hk⟩ | hr
    · exact .inr ⟨[], c, cs, k, rfl, fun b hb => by (cases hb), hk⟩
    · rcases ih fun c hc => h c (List.mem_cons_of_mem _ hc) with ih | ⟨before, d, after, k, h1, h2, h3⟩
      · left
        intro b hb
        cases hb with
        | head => exact hr
        | tail _ hb => exact ih b hb
      · refine .inr ⟨c :: before, d, after, k, by rw [h1]; rfl, ?_, h3⟩
        intro b hb
        cases hb with
        | head => exact hr
        | tail _ hb => exact h2 b hb

theorem opens_iff {F : Fuel} {f : WFile} {cache : List Cached} (hn : F.nest ≠ 0) (hbuf : f.env.buf ≠ [])
    (hg : ∀ c ∈ cache, c.profile.gen ≠ .unknown)
    (hall : ∀ c, (c ∈ cache ∧ Fits f.hdr c) ∨ (c.profile ∈ rows f.hdr.isPkg2_64 ∧ Listed c.profile.gen f.hdr.hash1 f.hdr.hash2 c.hash) →
      (∃ k, Opens F f c k) ∨ Refused F f c) :
    (∃ r, (f.parsePkg2 F cache).1 = .ok r) ↔
      ∃ c k, ((c ∈ cache ∧ Fits f.hdr c) ∨ (c.profile ∈ rows f.hdr.isPkg2_64 ∧ Listed c.profile.gen f.hdr.hash1 f.hdr.hash2 c.hash)) ∧
        Opens F f c k := by
  obtain ⟨cands, hc, h1, h2, h3⟩ := C44_first F f cache hn hbuf hg
  constructor
  · rintro ⟨⟨c, k⟩, hr⟩
    obtain ⟨ho, before, after, hs, -⟩ := h2 c k hr
    exact ⟨c, k, (mem_candidates hc c).mp (by rw [hs]; simp), ho⟩
  · rintro ⟨c, k, hm, ho⟩
    rcases first_open (fun c hc' => hall c ((mem_candidates hc c).mp hc')) with hr | ⟨before, c', after, k', hs, hb, ho'⟩
    · exact absurd ho (Wz.Refused.not_opens (hr c ((mem_candidates hc c).mpr hm)) k)
    · exact ⟨_, h1 before c' after k' hs hb ho'⟩

/-- C44, the part that holds: whether a file can be opened does not depend on the cache (only with which profile it is
opened may), if what is in the cache and fits the header is also found from the header.
Missing: see `C44_cached_only_counterexample` for a cached hash that fits the header and is not found from it. -/
theorem C44_cache_independent_partial (F : Fuel) (f : WFile) (cache : List Cached) (hn : F.nest ≠ 0) (hbuf : f.env.buf ≠ [])
    (hg : ∀ c ∈ cache, c.profile ∈ rows true ∨ c.profile ∈ rows false)
    (hlist : ∀ c ∈ cache, Fits f.hdr c → Listed c.profile.gen f.hdr.hash1 f.hdr.hash2 c.hash)
    (hall : ∀ c, c.profile ∈ rows f.hdr.isPkg2_64 → Listed c.profile.gen f.hdr.hash1 f.hdr.hash2 c.hash →
      (∃ k, Opens F f c k) ∨ Refused F f c) :
    (∃ r, (f.parsePkg2 F cache).1 = .ok r) ↔ ∃ r, (f.parsePkg2 F []).1 = .ok r := by
  have hrow : ∀ c ∈ cache, Fits f.hdr c → c.profile ∈ rows f.hdr.isPkg2_64 := by
    intro c hc hf
    have h1 : ∀ p ∈ rows true, p.name = .v1202 := by decide
    have h2 : ∀ p ∈ rows false, p.name ≠ .v1202 := by decide
    rcases hg c hc with h | h
    · rw [hf.1.mp (h1 _ h)]; exact h
    · cases hx : f.hdr.isPkg2_64 with
      | false => exact h
      | true => exact absurd (hf.1.mpr hx) (h2 _ h)
  have hgen : ∀ c ∈ cache, c.profile.gen ≠ .unknown := fun c hc => (hg c hc).elim rows_gen rows_gen
  rw [opens_iff hn hbuf hgen (fun c h => h.elim (fun ⟨a, b⟩ => hall c (hrow c a b) (hlist c a b)) (fun ⟨a, b⟩ => hall c a b)),
    opens_iff hn hbuf (by simp) (fun c h => h.elim (fun ⟨a, _⟩ => by (cases a)) (fun ⟨a, b⟩ => hall c a b))]
  constructor
  · rintro ⟨c, k, h | h, ho⟩
    · exact ⟨c, k, .inr ⟨hrow c h.1 h.2, hlist c h.1 h.2⟩, ho⟩
    · exact ⟨c, k, .inr h, ho⟩
  · rintro ⟨c, k, h | h, ho⟩
    · cases h.1
    · exact ⟨c, k, .inr h, ho⟩

/-- C44: in every history, what is in the cache and fits the header of a file is also found from that header, with one
exception: a hash of generation 3 (profile 1198) that is a multiple of 16, for a header whose first word is too. -/
theorem C44_cached_is_listed (F : Fuel) (hn : F.nest ≠ 0) (w : World) (h : World.Reach F w) (c : Cached) (hc : c ∈ w.cache)
    (hdr : Header) (hf : Fits hdr c) :
    c.profile ∈ rows hdr.isPkg2_64 ∧
    (Listed c.profile.gen hdr.hash1 hdr.hash2 c.hash ∨
      c.profile.gen = .v3 ∧ c.hash.toNat % 16 = 0 ∧ hdr.hash1.toNat % 16 = 0) := by
  obtain ⟨f, kids, -, h1, ⟨-, h2, h3⟩, -⟩ := C44_history F hn w h c hc
  have r1 : ∀ p ∈ rows true, p.name = .v1202 := by decide
  have r2 : ∀ p ∈ rows false, p.name ≠ .v1202 := by decide
  have hsame : f.hdr.isPkg2_64 = hdr.isPkg2_64 := by
    cases hx : f.hdr.isPkg2_64 with
    | true => rw [hx] at h1; exact (hf.1.mp (r1 _ h1)).symm
    | false =>
      cases hy : hdr.isPkg2_64 with
      | false => rfl
      | true => rw [hx] at h1; exact absurd (hf.1.mpr hy) (r2 _ h1)
  rw [← hsame]
  refine ⟨h1, ?_⟩
  by_cases he : c.profile.gen = .v3 ∧ c.hash.toNat % 16 = 0 ∧ hdr.hash1.toNat % 16 = 0
  · exact .inr he
  · refine .inl ⟨hf.2, h2, ?_⟩
    intro ho
    unfold Overlooked at ho h3
    cases hg : c.profile.gen <;> rw [hg] at ho h3 he <;> dsimp only at ho h3
    all_goals first
      | exact h3 ho
      | exact he ⟨rfl, ho.2⟩

def row1198 : Profile := ⟨.v1198, .kmst1198, .v3, .pkg2V2⟩

/-- **Violation of C44**: the result can depend on the cache.  Version hash 16 with the profile 1198 is found from the
first header here, so that a file with it can put it in the cache.  It also solves the equation for the second header,
and is tried for a file with it when it is in the cache; but it is not found from that header without the cache.  A file
with the second header that opens with this candidate and with no other is therefore opened or not depending on the
files opened before. -/
theorem C44_cached_only_counterexample :
    Listed .v3 1#64 (BitVec.ofNat 64 0xCBA98756) 16#64 ∧
    ∀ (F : Fuel) (f : WFile), F.nest ≠ 0 → f.env.buf ≠ [] → f.hdr.isPkg2_64 = false → f.hdr.hash1 = 0#64 →
      f.hdr.hash2 = BitVec.ofNat 64 0xE5D4C3B2 → (∃ kids, Opens F f ⟨row1198, 16#64⟩ kids) →
      (∀ c : Cached, c.profile ∈ rows false → Listed c.profile.gen f.hdr.hash1 f.hdr.hash2 c.hash → Refused F f c) →
      (∃ r, (f.parsePkg2 F [⟨row1198, 16#64⟩]).1 = .ok r) ∧ ¬∃ r, (f.parsePkg2 F []).1 = .ok r := by
  refine ⟨?_, ?_⟩
  · refine ⟨?_, fun _ => by decide, ?_⟩
    · unfold Equation Solves3 lo32; decide +kernel
    · unfold Overlooked; decide
  · intro F f hn hbuf hx h1 h2 ⟨kids, ho⟩ hall
    have hfit : Fits f.hdr ⟨row1198, 16#64⟩ := by
      refine ⟨by rw [hx]; decide, ?_⟩
      rw [h1, h2]
      unfold Equation row1198 Solves3 lo32; decide +kernel
    constructor
    · rw [opens_iff hn hbuf (by intro c hc; rw [List.mem_singleton] at hc; subst hc; decide)]
      · exact ⟨_, kids, .inl ⟨List.mem_cons_self, hfit⟩, ho⟩
      · rintro c (⟨hc, -⟩ | ⟨a, b⟩)
        · rw [List.mem_singleton] at hc
          subst hc
          exact .inl ⟨kids, ho⟩
        · exact .inr (hall c (by rw [hx] at a; exact a) b)
    · rw [opens_iff hn hbuf (by simp)]
      · rintro ⟨c, k, h | ⟨a, b⟩, ho⟩
        · cases h.1
        · exact Wz.Refused.not_opens (hall c (by rw [hx] at a; exact a) b) k ho
      · rintro c (⟨hc, -⟩ | ⟨a, b⟩)
        · cases hc
        · exact .inr (hall c (by rw [hx] at a; exact a) b)

/-! ## Headers with 64-bit words -/

def row1202 : Profile := ⟨.v1202, .kmst1202, .v6, .pkg2_64V1⟩

/-- the one solution of generation 6 -/
theorem solves6_unique {h1 h2 t t' : BitVec 64} (h : Solves6 h1 h2 t) (h' : Solves6 h1 h2 t') : t = t' := by
  unfold Solves6 at h h'
  have : h1 ^^^ h2 ^^^ t = h1 ^^^ h2 ^^^ t' := by rw [h, h']
  have := congrArg (fun w => (h1 ^^^ h2) ^^^ w) this
  simpa [← BitVec.xor_assoc] using this

theorem wide_candidates {h : Header} {cache cands : List Cached} {t : BitVec 64} (hx : h.isPkg2_64 = true)
    (hg : ∀ c ∈ cache, c.profile ∈ rows true ∨ c.profile ∈ rows false) (hc : Candidates h cache cands)
    (ht : Solves6 h.hash1 h.hash2 t) : ∃ after, cands = ⟨row1202, t⟩ :: after ∧ ∀ c ∈ after, c = ⟨row1202, t⟩ := by
  have hall : ∀ c ∈ cands, c = ⟨row1202, t⟩ := by
    intro c hm
    have r1 : ∀ p ∈ rows true, p = row1202 := by decide
    have r2 : ∀ p ∈ rows false, p.name ≠ .v1202 := by decide
    have : c.profile = row1202 ∧ Solves6 h.hash1 h.hash2 c.hash := by
      rcases (mem_candidates hc c).mp hm with ⟨a, b⟩ | ⟨a, b⟩
      · rcases hg c a with a | a
        · have e := r1 _ a
          have := b.2
          rw [e] at this
          exact ⟨e, this⟩
        · exact absurd (b.1.mpr hx) (r2 _ a)
      · rw [hx] at a
        have e := r1 _ a
        have := b.1
        rw [e] at this
        exact ⟨e, this⟩
    obtain ⟨p, q⟩ := c
    obtain ⟨rfl, h2⟩ := this
    exact congrArg (Cached.mk row1202) (solves6_unique h2 ht)
  have hmem : (⟨row1202, t⟩ : Cached) ∈ cands := (mem_candidates hc _).mpr (.inr ⟨by rw [hx]; exact (by decide : row1202 ∈ rows true), ht, fun h => absurd rfl h, fun h => h⟩)
  cases cands with
  | nil => cases hmem
  | cons c cs =>
    rw [hall c List.mem_cons_self]
    exact ⟨cs, rfl, fun d hd => hall d (List.mem_cons_of_mem _ hd)⟩

/-- C44 for 64-bit headers: the result is the same with every cache. -/
theorem C44_wide_cache_irrelevant (F : Fuel) (f : WFile) (cache : List Cached) (hn : F.nest ≠ 0) (hbuf : f.env.buf ≠ [])
    (hx : f.hdr.isPkg2_64 = true) (hg : ∀ c ∈ cache, c.profile ∈ rows true ∨ c.profile ∈ rows false) (t : BitVec 64)
    (ht : Solves6 f.hdr.hash1 f.hdr.hash2 t) (hd : (∃ k, Opens F f ⟨row1202, t⟩ k) ∨ Refused F f ⟨row1202, t⟩) :
    (f.parsePkg2 F cache).1 = (f.parsePkg2 F []).1 := by
  obtain ⟨c1, a1, a2, -, a4⟩ := C44_first F f cache hn hbuf (fun c hc => (hg c hc).elim rows_gen rows_gen)
  obtain ⟨c2, b1, b2, -, b4⟩ := C44_first F f [] hn hbuf (by simp)
  obtain ⟨r1, hc1, hr1⟩ := wide_candidates hx hg a1 ht
  obtain ⟨r2, hc2, hr2⟩ := wide_candidates hx (by simp) b1 ht
  rcases hd with ⟨k, hk⟩ | hr
  · rw [a2 [] _ r1 k hc1 (by simp) hk, b2 [] _ r2 k hc2 (by simp) hk]
  · obtain ⟨e1, h1, h2⟩ := a4 (by
      rw [hc1]; intro c hc
      cases hc with
      | head => exact hr
      | tail _ hc => rw [hr1 c hc]; exact hr)
    obtain ⟨e2, h3, h4⟩ := b4 (by
      rw [hc2]; intro c hc
      cases hc with
      | head => exact hr
      | tail _ hc => rw [hr2 c hc]; exact hr)
    rw [hx] at h2 h4
    rcases h2 with rfl | ⟨h2, -⟩
    · rcases h4 with rfl | ⟨h4, -⟩
      · rw [h1, h3]
      · cases h4
    · cases h2

/-- C44 from the side of the tool that writes the file, 64-bit headers: a file that holds a directory written for the
version hash of its header is opened with that hash and gives exactly that directory, whatever is in the cache. -/
theorem C44_wide_opens (f : WFile) (t : BitVec 64) (items : List (List Char × DNode)) (hv : f.hdr.ident = .v2)
    (hx : f.hdr.isPkg2_64 = true) (hf : f.hdr.fstart < 2 ^ 32) (hb : f.env.buf.length < 2 ^ 63) (hbuf : f.env.buf ≠ [])
    (ht : Solves6 f.hdr.hash1 f.hdr.hash2 t) (h0 : t ≠ 0)
    (h : HoldsDir (Block64 (reading f ⟨row1202, t⟩) t) f.hdr.dataStart items) :
    ∃ N, ∀ F : Fuel, N ≤ F.loop → N ≤ F.nest → ∀ cache : List Cached,
      (∀ c ∈ cache, c.profile ∈ rows true ∨ c.profile ∈ rows false) →
      (f.parsePkg2 F cache).1 = .ok (⟨row1202, t⟩, items) := by
  obtain ⟨k, hk⟩ := reading_key f ⟨row1202, t⟩
  obtain ⟨N, hN⟩ := C19_pkg2_64_partial (reading f ⟨row1202, t⟩) t f.hdr.dataStart f.env.buf.length items
    (by rw [hk]; exact hv) (by rw [hk]; exact hx) (by rw [hk]; exact hf) (by rw [hk]; exact hb) (by simpa using hbuf) h
  refine ⟨N + 1, fun F h1 h2 cache hg => ?_⟩
  obtain ⟨cands, a1, a2, -, -⟩ := C44_first F f cache (by omega) hbuf (fun c hc => (hg c hc).elim rows_gen rows_gen)
  obtain ⟨r, hc, -⟩ := wide_candidates hx hg a1 ht
  exact a2 [] _ r items hc (by simp) ⟨h0, hN F.loop F.nest (by omega) (by omega)⟩

/-- C44 from the side of the tool that writes the file, 32-bit headers: a file that holds a directory written for a
profile and a version hash is opened with them and gives exactly that directory, unless an earlier candidate opens it
or crashes. -/
theorem C44_narrow_opens (f : WFile) (c : Cached) (items : List (List Char × DNode)) (hv : f.hdr.ident = .v2)
    (hx : f.hdr.isPkg2_64 = false) (hf : f.hdr.fstart < 2 ^ 32) (hb : f.env.buf.length < 2 ^ 63) (hbuf : f.env.buf ≠ [])
    (h0 : c.hash ≠ 0) (h : HoldsDir (Block2 (reading f c) c.profile.ver c.hash) f.hdr.dataStart items) :
    ∃ N, ∀ F : Fuel, N ≤ F.loop → N ≤ F.nest → ∀ cache : List Cached,
      (∀ c ∈ cache, c.profile ∈ rows true ∨ c.profile ∈ rows false) →
      ∃ cands, Candidates f.hdr cache cands ∧ ∀ before after, cands = before ++ c :: after → (∀ b ∈ before, Refused F f b) →
        (f.parsePkg2 F cache).1 = .ok (c, items) := by
  obtain ⟨k, hk⟩ := reading_key f c
  obtain ⟨N, hN⟩ := C19_pkg2 (reading f c) c.hash c.profile.ver f.hdr.dataStart f.env.buf.length items
    (by rw [hk]; exact hv) (by rw [hk]; exact hx) (by rw [hk]; exact hf) (by rw [hk]; exact hb) (by simpa using hbuf) h
  refine ⟨N + 1, fun F h1 h2 cache hg => ?_⟩
  obtain ⟨cands, a1, a2, -, -⟩ := C44_first F f cache (by omega) hbuf (fun c hc => (hg c hc).elim rows_gen rows_gen)
  exact ⟨cands, a1, fun before after hs hr => a2 before c after items hs hr ⟨h0, hN F.loop F.nest (by omega) (by omega)⟩⟩

/-! ### concrete files -/

/-- the 64-bit file of C19 with the second header word for version hash 77 -/
def wfile64 : WFile :=
  { env := ctx64.env, hdr := { hdr64 with hash2 := 0x12345678#64 ^^^ 77#64 ^^^ 0xABCDEF0123456789#64 }, keys2 := true, verified := true }

theorem wfile64_holds : HoldsDir (Block64 (reading wfile64 ⟨row1202, 77#64⟩) 77#64) 4 [(['a'], .image 24 1)] := by
  have one : IsWzInt 4 ((1 : Nat) : Int) [1#8] := .short (by decide) (by decide)
  have zero : IsWzInt 4 0 [0#8] := .short (by decide) (by decide)
  have hc : IsWzInt 8 (storedCount 0x12345678#64 77#64 1 0xBEEF#16).toInt count64 := by
    have := IsWzInt.long (w := 8) (v := (storedCount 0x12345678#64 77#64 1 0xBEEF#16).toInt)
      (by decide +kernel) (by decide +kernel)
    have e : unsign (8 * 8) (storedCount 0x12345678#64 77#64 1 0xBEEF#16).toInt =
      (storedCount 0x12345678#64 77#64 1 0xBEEF#16).toNat := by decide +kernel
    rw [e] at this
    exact this
  refine .mk _ _ ⟨0xBEEF#16, count64, 20, by decide, hc, holds_slice 4 (by decide +kernel), ?_, ?_⟩ ?_ ?_ ?_
  · refine .cons true 13 20 4#8 ['a'] (.image 24 1) 24 1 0 [0xFF#8, 0xFF#8, 0x61#8, 0#8] [1#8] [0#8] _ (.image _ _)
      ⟨by decide +kernel, 0x73#8, holds_slice 24 (by decide +kernel), .inl rfl⟩ (by decide) ?_ one zero
      (holds_slice 13 (by decide +kernel)) (.nil _ _)
    exact ⟨by decide +kernel, by decide +kernel, by decide +kernel⟩
  · exact .cons 20 _ _ (holds_slice 20 (by decide +kernel)) (.nil _)
  · intro name o kids hm; simp at hm
  · intro name o s kids hm; simp at hm
  · intro name o s kids hm; simp at hm

theorem wfile64_opens : ∃ N, ∀ F : Fuel, N ≤ F.loop → N ≤ F.nest → ∀ cache : List Cached,
      (∀ c ∈ cache, c.profile ∈ rows true ∨ c.profile ∈ rows false) →
      (wfile64.parsePkg2 F cache).1 = .ok (⟨row1202, 77#64⟩, [(['a'], .image 24 1)]) :=
  C44_wide_opens wfile64 77#64 _ rfl (by decide) (by decide) (by decide +kernel) (by decide +kernel)
    (by unfold Solves6; decide +kernel) (by decide) wfile64_holds

/-- this file opens with every listed candidate: there is just one -/
theorem wfile64_all : ∃ F : Fuel, F.nest ≠ 0 ∧ wfile64.env.buf ≠ [] ∧ ∀ c : Cached, c.profile ∈ rows wfile64.hdr.isPkg2_64 →
    Listed c.profile.gen wfile64.hdr.hash1 wfile64.hdr.hash2 c.hash → ∃ k, Opens F wfile64 c k := by
  obtain ⟨N, hN⟩ := wfile64_opens
  have hN := hN ⟨N + 1, N + 1⟩ (by simp) (by simp) [] (by simp)
  have hb : wfile64.env.buf ≠ [] := by decide +kernel
  have r1 := World.Reach.step _ _ (World.Reach.init (F := ⟨N + 1, N + 1⟩)) (.start _ wfile64 hb)
  have r2 := World.Reach.step _ _ r1 (.finish _ [] [] wfile64 [] _ _ rfl hN)
  obtain ⟨k, hk⟩ := (C44_history_opened ⟨N + 1, N + 1⟩ (by simp) _ r2 wfile64 ⟨row1202, 77#64⟩ (.head _)).1
  refine ⟨⟨N + 1, N + 1⟩, by simp, hb, fun c hc hl => ?_⟩
  have e : rows wfile64.hdr.isPkg2_64 = [row1202] := by decide +kernel
  rw [e, List.mem_singleton] at hc
  obtain ⟨p, t⟩ := c
  dsimp only at hc hl ⊢
  subst hc
  have h1 : Solves6 wfile64.hdr.hash1 wfile64.hdr.hash2 t := hl.1
  have h2 : Solves6 wfile64.hdr.hash1 wfile64.hdr.hash2 77#64 := by unfold Solves6; decide +kernel
  unfold Solves6 at h1 h2
  have : t = 77#64 := (BitVec.xor_right_inj _).1 (h1.trans h2.symm)
  rw [this]
  exact ⟨k, hk⟩

/-- `C44_cache_independent_partial` and `C44_wide_cache_irrelevant` -/
example : ∃ F : Fuel, F.nest ≠ 0 ∧ wfile64.hdr.isPkg2_64 = true ∧ Solves6 wfile64.hdr.hash1 wfile64.hdr.hash2 77#64 ∧
    ∃ k, Opens F wfile64 ⟨row1202, 77#64⟩ k := by
  obtain ⟨F, h1, _, h3⟩ := wfile64_all
  refine ⟨F, h1, by decide +kernel, by unfold Solves6; decide +kernel, h3 ⟨row1202, 77#64⟩ (by decide +kernel) ?_⟩
  exact ⟨show Solves6 _ _ _ by unfold Solves6; decide +kernel, fun h => absurd rfl h, fun h => h⟩

/-- a history: two threads start to open this file, and both finish; the cache then has the profile twice -/
example : ∃ (F : Fuel) (w : World), F.nest ≠ 0 ∧ World.Reach F w ∧ w.cache = [⟨row1202, 77#64⟩, ⟨row1202, 77#64⟩] ∧
    w.opened.map Prod.snd = [⟨row1202, 77#64⟩, ⟨row1202, 77#64⟩] := by
  obtain ⟨N, hN⟩ := wfile64_opens
  have hN := hN ⟨N + 1, N + 1⟩ (by simp) (by simp) [] (by simp)
  have hb : wfile64.env.buf ≠ [] := by decide +kernel
  have hp : (wfile64.parsePkg2 ⟨N + 1, N + 1⟩ []).2.2 = [⟨row1202, 77#64⟩] := by
    rcases (C44_file_after ⟨N + 1, N + 1⟩ wfile64 [] (by simp) hb (by simp) _ _ hN).2.2.2 with ⟨_, h⟩ | ⟨h, _⟩
    · cases h
    · exact h
  have r0 : World.Reach ⟨N + 1, N + 1⟩ {} := .init
  have r1 := World.Reach.step _ _ r0 (.start _ wfile64 hb)
  have r2 := World.Reach.step _ _ r1 (.start _ wfile64 hb)
  have r3 := World.Reach.step _ _ r2 (.finish _ [] [(wfile64, [])] wfile64 [] _ _ rfl hN)
  have r4 := World.Reach.step _ _ r3 (.finish _ [] [] wfile64 [] _ _ rfl hN)
  exact ⟨_, _, by simp, r4, by dsimp only; rw [hp]; rfl, rfl⟩

/-- the 32-bit file of C19 with the second header word for version hash 77, and that profile in the cache -/
def wfile2 : WFile :=
  { env := ctx2.env, hdr := { hdr2 with hash2 := BitVec.ofNat 64 (~~~word4 0x12345678#32 77#32).toNat }, keys2 := true, verified := true }

def row1201 : Profile := ⟨.v1201, .kmst1199, .v4, .pkg2V3⟩

example : Fits wfile2.hdr ⟨row1201, 77#64⟩ ∧ (⟨row1201, 77#64⟩ : Cached).hash ≠ 0 ∧ Listed .v4 wfile2.hdr.hash1 wfile2.hdr.hash2 77#64 := by
  have h : Equation .v4 wfile2.hdr.hash1 wfile2.hdr.hash2 77#64 := by
    unfold Equation Solves4 lo32 wfile2 hdr2 word4 mixed mixKmst1199; decide +kernel
  exact ⟨⟨by decide, h⟩, by decide, h, fun _ => by decide, by unfold Overlooked; decide⟩

/-! ## The key does not matter for opening -/

/-- the check of a directory, with the result of reading its entry count as a parameter -/
def dirHead (m : Mode) (offset size len : Nat) (r : Except Err Int) : Except Err Unit := do
  let stop ← addU m offset size
  if ¬(stop ≤ len) then throw (.lib "InvalidWzVersion")
  let c ← r
  if c < 0 then throw (.lib "InvalidWzVersion") else return ()

theorem locate_key (x : DirCtx) (k : Nat → Byte) (h : BitVec 64) (v : OffsetVersion) (en : Entry) :
    Entry.locate (x.key k) h v en = Entry.locate x h v en := by
  have hv : ∀ en : Entry, en.verify (x.key k) = en.verify x := by
    intro en
    unfold Entry.verify
    cases en.ty with
    | dir =>
      have h64 := Rd.Blind.readWzInt64 x.env k ⟨en.offset, 0⟩
      have h32 := Rd.Blind.readWzInt x.env k ⟨en.offset, 0⟩
      refine congrArg (dirHead x.env.mode en.offset en.size x.env.buf.length) ?_
      change ((if x.hdr.isPkg2_64 = true then Rd.readWzInt64 else Rd.readWzInt).run (x.env.key k) ⟨en.offset, 0⟩).1 =
        ((if x.hdr.isPkg2_64 = true then Rd.readWzInt64 else Rd.readWzInt).run x.env ⟨en.offset, 0⟩).1
      split
      · rw [h64]
      · rw [h32]
    | _ => rfl
  unfold Entry.locate
  simp only [hv]
  rfl

theorem calcVerify_key (x : DirCtx) (k : Nat → Byte) (d : Dir) : calcVerify (x.key k) d = calcVerify x d := by
  unfold calcVerify
  have : Entry.locate (x.key k) d.hash d.ver = Entry.locate x d.hash d.ver := funext (locate_key x k d.hash d.ver)
  rw [this]

/-- the same result up to names -/
inductive SameShape : DNode → DNode → Prop
  | image (o s : Nat) : SameShape (.image o s) (.image o s)
  | dir (o s : Nat) (a b : List (List Char × DNode)) : SameShape (.dir o s a) (.dir o s b)
  | none : SameShape .none .none

theorem toNode_key (x : DirCtx) (k : Nat → Byte) (en : Entry) :
    match en.toNode x, en.toNode (x.key k) with
    | .ok a, .ok b => a.2 = b.2
    | .error a, .error b => a = b
    | _, _ => False := by
  have h := resolveMeta_key x.env k en.name.ty en.name.offset en.name.length
  unfold Entry.toNode
  dsimp only [DirCtx.key]
  cases h1 : resolveMeta (x.env.key k) en.name.ty en.name.offset en.name.length with
  | error a =>
    cases h2 : resolveMeta x.env en.name.ty en.name.offset en.name.length with
    | error b => rw [h1, h2] at h; cases h; exact rfl
    | ok b => rw [h1, h2] at h; cases h
  | ok a =>
    cases h2 : resolveMeta x.env en.name.ty en.name.offset en.name.length with
    | error b => rw [h1, h2] at h; cases h
    | ok b => exact rfl

/-- two results: both errors, the same one, or both lists whose elements are pairwise of the same shape -/
def Alike (a b : Except Err (List (List Char × DNode))) : Prop :=
  match a, b with
  | .ok a, .ok b => All2 (fun p q => SameShape p.2 q.2) a b
  | .error a, .error b => a = b
  | _, _ => False

theorem mapM_toNode_key (x : DirCtx) (k : Nat → Byte) (es : List Entry) :
    match es.mapM (Entry.toNode x), es.mapM (Entry.toNode (x.key k)) with
    | .ok a, .ok b => All2 (fun p q => p.2 = q.2) a b
    | .error a, .error b => a = b
    | _, _ => False := by
  induction es with
  | nil => exact .nil
  | cons en es ih =>
    rw [List.mapM_cons, List.mapM_cons]
    have h := toNode_key x k en
    cases h1 : en.toNode x <;> cases h2 : en.toNode (x.key k) <;> rw [h1, h2] at h
    · exact h
    · exact h.elim
    · exact h.elim
    · simp only [bind, Except.bind]
      cases h3 : es.mapM (Entry.toNode x) <;> cases h4 : es.mapM (Entry.toNode (x.key k)) <;> rw [h3, h4] at ih
      · exact ih
      · exact ih.elim
      · exact ih.elim
      · exact .cons h ih

/-- Reading a directory succeeds or fails in the same way with every key for its names, and gives nodes of the same
kind, place and size in the same order: only the names differ. -/
theorem C44_key_irrelevant (x : DirCtx) (k : Nat → Byte) (lf fuel : Nat) (d : Dir) :
    Alike (resolveDir x lf fuel d) (resolveDir { x with env := { x.env with ks2 := k } } lf fuel d) := by
  change Alike (resolveDir x lf fuel d) (resolveDir (x.key k) lf fuel d)
  induction fuel generalizing d with
  | zero => exact rfl
  | succ fuel ih =>
    by_cases hs : d.blockSize = 0
    · unfold resolveDir
      rw [if_pos hs, if_pos hs]
      exact .nil
    · rw [resolveDir_rest _ _ _ _ hs, resolveDir_rest _ _ _ _ hs, prepareEntries_key]
      cases prepareEntries x lf d with
      | error e => exact rfl
      | ok d1 =>
        simp only [bind, Except.bind]
        unfold resolveRest
        rw [calcVerify_key]
        cases (calcVerify x d1).mapError (isErrTo "InvalidWzVersion") with
        | error e => exact rfl
        | ok d2 =>
          simp only [bind, Except.bind]
          have h := mapM_toNode_key x k d2.entries
          cases h1 : d2.entries.mapM (Entry.toNode x) <;> cases h2 : d2.entries.mapM (Entry.toNode (x.key k)) <;> rw [h1, h2] at h
          · exact h
          · exact h.elim
          · exact h.elim
          · rename_i a b
            dsimp only
            clear h1 h2
            induction h with
            | nil => exact .nil
            | @cons p q l r hpq hlr ih2 =>
              rw [List.mapM_cons, List.mapM_cons]
              have hstep : match dirStep x lf fuel d2.hash d2.ver p, dirStep (x.key k) lf fuel d2.hash d2.ver q with
                  | .ok a, .ok b => SameShape a.2 b.2
                  | .error a, .error b => a = b
                  | _, _ => False := by
                unfold dirStep
                obtain ⟨p1, p2⟩ := p
                obtain ⟨q1, q2⟩ := q
                dsimp only at hpq ⊢
                subst hpq
                cases p2 with
                | image o s => exact .image o s
                | none => exact .none
                | dir o s c =>
                  dsimp only
                  have := ih { offset := o, blockSize := s, hash := d2.hash, ver := d2.ver }
                  unfold Alike at this
                  cases h5 : resolveDir x lf fuel { offset := o, blockSize := s, hash := d2.hash, ver := d2.ver } <;>
                    cases h6 : resolveDir (x.key k) lf fuel { offset := o, blockSize := s, hash := d2.hash, ver := d2.ver } <;>
                    rw [h5, h6] at this
                  · exact this
                  · exact this.elim
                  · exact this.elim
                  · exact .dir o s _ _
              cases h5 : dirStep x lf fuel d2.hash d2.ver p <;> cases h6 : dirStep (x.key k) lf fuel d2.hash d2.ver q <;>
                rw [h5, h6] at hstep
              · exact hstep
              · exact hstep.elim
              · exact hstep.elim
              · simp only [bind, Except.bind]
                unfold Alike at ih2
                cases h7 : l.mapM (dirStep x lf fuel d2.hash d2.ver) <;> cases h8 : r.mapM (dirStep (x.key k) lf fuel d2.hash d2.ver) <;>
                  rw [h7, h8] at ih2
                · exact ih2
                · exact ih2.elim
                · exact ih2.elim
                · exact All2.cons hstep ih2

/-- The check of the string decryptor made for each candidate accepts one key exactly when it accepts every other: it
cannot tell a right key from a wrong one. -/
theorem C44_name_check_blind (x : DirCtx) (k : Nat → Byte) (d : Dir) :
    verifyStringDecryptor { x with env := { x.env with ks2 := k } } d = verifyStringDecryptor x d :=
  verifyStringDecryptor_key x k d

/-- two keys, two names, one success: the name of the first entry of the 64-bit file read with a wrong key -/
example : resolveMeta ctx64.env .pkg2Dir 16 2 = .ok ['a'] ∧
    resolveMeta { ctx64.env with ks2 := fun _ => 1#8 } .pkg2Dir 16 2 = .ok ['Š'] := by decide +kernel

end Wz.Props
