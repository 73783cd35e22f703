import Verif.Mode.Whole
import Verif.Mode.Spec
import Verif.Node.PathProps
import Verif.Whole.MsModel
import Verif.Whole.PlaceSpec
import Verif.Whole.Model
import Verif.Node.PlaceLemmas
import Verif.Image.TakenProps

set_option autoImplicit false

namespace Wz

open Wz.Spec Wz.Props

/-! ### entries -/

theorem EntryNamed.head {ν : Type} {items : List (List Char × ν)} {n : List Char} {v : ν} {any : Prop}
    (h : n ∉ items.map Prod.fst ∨ any) : EntryNamed ((n, v) :: items) n v any := by
  refine ⟨[], items, rfl, ?_⟩
  rcases h with h | h
  · exact .inr fun it hit he => h (List.mem_map.mpr ⟨it, hit, he⟩)
  · exact .inl h

theorem EntryNamed.cons {ν : Type} {items : List (List Char × ν)} {n : List Char} {v : ν} {any : Prop} (x : List Char × ν)
    (h : EntryNamed items n v any) : EntryNamed (x :: items) n v any := by
  obtain ⟨a, b, h1, h2⟩ := h
  exact ⟨x :: a, b, by rw [h1]; rfl, h2⟩

theorem Spec.DirHas.cons {items : List (List Char × DNode)} {ns : List (List Char)} {d : DNode} (x : List Char × DNode)
    (h : DirHas items ns d) : DirHas (x :: items) ns d := by
  cases h with
  | here _ _ _ h => exact .here _ _ _ (EntryNamed.cons x h)
  | deeper _ ks n o s ns _ h h' => exact .deeper _ ks n o s ns _ (EntryNamed.cons x h) h'

theorem Spec.PropHas.cons {kids : List (List Char × PNode)} {ms : List (List Char)} {v : PObj} (x : List Char × PNode)
    (h : PropHas kids ms v) : PropHas (x :: kids) ms v := by
  cases h with
  | here _ ks n _ h => exact .here _ ks n _ (EntryNamed.cons x h)
  | deeper _ ks n w _ ms h h' => exact .deeper _ ks n w _ ms (EntryNamed.cons x h) h'

theorem Spec.ImageHas.cons {kids : List (List Char × ImgNode)} {ms : List (List Char)} {v : PObj} (x : List Char × ImgNode)
    (h : ImageHas kids ms v) : ImageHas (x :: kids) ms v := by
  cases h with
  | here ks n _ h => exact .here _ ks n _ (EntryNamed.cons x h)
  | deeper ks n w _ ms h h' => exact .deeper _ ks n w _ ms (EntryNamed.cons x h) h'

/-! ### directories -/

theorem dirForest_nms : ∀ items : List (List Char × DNode), (dirForest items).names = items.map Prod.fst
  | [] => by simp only [dirForest]; rfl
  | (n, d) :: items => by
    rw [dirForest, dirTree]
    cases d <;> simp only [dirNode, Forest.names, List.map_cons, dirForest_nms items]

/-- the kind of the node of an entry -/
inductive EntryKind : List Char → DNode → NKind → Prop
  | image (n : List Char) (o s : Nat) : EntryKind n (.image o s) (.image false (Encodable.encode (Src58.image n o s)))
  | dir (n : List Char) (o s : Nat) (ks : List (List Char × DNode)) : EntryKind n (.dir o s ks) (.dir false true (Encodable.encode (Src58.dir o s)))
  | empty (n : List Char) : EntryKind n .none (.other (Encodable.encode Leaf58.empty))

theorem entryKind_noLink {n : List Char} {d : DNode} {k : NKind} (h : EntryKind n d k) : k.isUol = false := by
  cases h <;> rfl

theorem dirForest_has {f : Forest} {ms : List (List Char)} {k : NKind} (h : ForestHas f ms k) :
    ∀ items, dirForest items = f → ∃ n d, DirHas items ms d ∧ ms.getLast? = some n ∧ EntryKind n d k := by
  induction h with
  | here n k ks rest hn =>
    intro items he
    cases items with
    | nil => rw [dirForest] at he; cases he
    | cons x items =>
      obtain ⟨m, d⟩ := x
      rw [dirForest, dirTree] at he
      have key : ∀ (kk : NKind), EntryKind m d kk → m = n → kk = k → dirForest items = rest →
          ∃ n' d', DirHas ((m, d) :: items) [n] d' ∧ [n].getLast? = some n' ∧ EntryKind n' d' k := by
        intro kk h1 h2 h3 h4
        subst h2 h3 h4
        refine ⟨m, d, .here _ _ _ (EntryNamed.head (.inl ?_)), rfl, h1⟩
        rw [← dirForest_nms]
        rcases hn with hn | hn
        · exact hn
        · rw [entryKind_noLink h1] at hn; cases hn
      cases d with
      | image o s =>
        simp only [dirNode, Forest.node.injEq] at he
        exact key _ (.image m o s) he.1 he.2.1 he.2.2.2
      | dir o s ks' =>
        simp only [dirNode, Forest.node.injEq] at he
        exact key _ (.dir m o s ks') he.1 he.2.1 he.2.2.2
      | none =>
        simp only [dirNode, Forest.node.injEq] at he
        exact key _ (.empty m) he.1 he.2.1 he.2.2.2
  | next n k k' ks rest ms _ ih =>
    intro items he
    cases items with
    | nil => rw [dirForest] at he; cases he
    | cons x items =>
      obtain ⟨m, d⟩ := x
      have hr : dirForest items = rest := by
        rw [dirForest, dirTree] at he
        cases d <;> simp only [dirNode, Forest.node.injEq] at he <;> exact he.2.2.2
      obtain ⟨n', d', h1, h2, h3⟩ := ih items hr
      exact ⟨n', d', h1.cons _, h2, h3⟩
  | deeper n k k' ks rest ms hn hks ih =>
    intro items he
    cases items with
    | nil => rw [dirForest] at he; cases he
    | cons x items =>
      obtain ⟨m, d⟩ := x
      rw [dirForest, dirTree] at he
      cases d with
      | image o s =>
        simp only [dirNode, Forest.node.injEq] at he
        rw [← he.2.2.1] at hks
        exact (forestHas_nil hks).elim
      | none =>
        simp only [dirNode, Forest.node.injEq] at he
        rw [← he.2.2.1] at hks
        exact (forestHas_nil hks).elim
      | dir o s ks' =>
        simp only [dirNode, Forest.node.injEq] at he
        obtain ⟨n', d', h1, h2, h3⟩ := ih ks' he.2.2.1
        obtain ⟨rfl, -, -, hr⟩ := he
        refine ⟨n', d', .deeper _ ks' m o s ms d' (EntryNamed.head (.inl ?_)) h1, ?_, h3⟩
        · rw [← dirForest_nms, hr]
          rcases hn with hn | hn
          · exact hn
          · rw [entryKind_noLink h3] at hn; cases hn
        · rw [List.getLast?_cons, h2]; rfl

/-! ### properties -/

theorem propForest_nms (e : Env) : ∀ kids : List (List Char × PNode), (propForest e kids).names = kids.map Prod.fst
  | [] => by simp only [propForest]; rfl
  | (n, .node o ks) :: kids => by
    rw [propForest, propTree, propNode]
    simp only [Forest.names, List.map_cons, propForest_nms e kids]

theorem propKind_link {e : Env} {o : PObj} (h : (propKind e o).isUol = true) : IsLink o := by
  cases o <;> first | exact ⟨_, rfl⟩ | cases h

theorem propForest_has {e : Env} {f : Forest} {ms : List (List Char)} {k : NKind} (h : ForestHas f ms k) :
    ∀ kids, propForest e kids = f → ∃ o, PropHas kids ms o ∧ k = propKind e o := by
  induction h with
  | here n k ks rest hn =>
    intro kids he
    cases kids with
    | nil => rw [propForest] at he; cases he
    | cons x kids =>
      obtain ⟨m, ⟨o, ks'⟩⟩ := x
      rw [propForest, propTree, propNode] at he
      simp only [Forest.node.injEq] at he
      obtain ⟨rfl, rfl, -, hr⟩ := he
      refine ⟨o, .here _ ks' m o (EntryNamed.head ?_), rfl⟩
      rw [← propForest_nms e, hr]
      exact hn.imp_right propKind_link
  | next n k k' ks rest ms _ ih =>
    intro kids he
    cases kids with
    | nil => rw [propForest] at he; cases he
    | cons x kids =>
      obtain ⟨m, ⟨o, ks'⟩⟩ := x
      rw [propForest, propTree, propNode] at he
      simp only [Forest.node.injEq] at he
      obtain ⟨o', h1, h2⟩ := ih kids he.2.2.2
      exact ⟨o', h1.cons _, h2⟩
  | deeper n k k' ks rest ms hn hks ih =>
    intro kids he
    cases kids with
    | nil => rw [propForest] at he; cases he
    | cons x kids =>
      obtain ⟨m, ⟨o, ks'⟩⟩ := x
      rw [propForest, propTree, propNode] at he
      simp only [Forest.node.injEq] at he
      obtain ⟨rfl, -, hk, hr⟩ := he
      obtain ⟨o', h1, h2⟩ := ih ks' hk
      refine ⟨o', .deeper _ ks' m o o' ms (EntryNamed.head ?_) h1, h2⟩
      rw [← propForest_nms e, hr]
      rw [h2] at hn
      exact hn.imp_right propKind_link

theorem imgForest_nms (e : Env) : ∀ kids : List (List Char × ImgNode), (imgForest e kids).names = kids.map Prod.fst
  | [] => rfl
  | (n, .lua off len) :: kids => by
    simp only [imgForest, Forest.names, List.map_cons, imgForest_nms e kids]
  | (n, .prop (.node o ks)) :: kids => by
    rw [imgForest, propNode]
    simp only [Forest.names, List.map_cons, imgForest_nms e kids]

theorem imgForest_has {e : Env} {f : Forest} {ms : List (List Char)} {k : NKind} (h : ForestHas f ms k) :
    ∀ kids, imgForest e kids = f → (∃ o, ImageHas kids ms o ∧ k = propKind e o) ∨
      ∃ m off len, ms = [m] ∧ EntryNamed kids m (.lua off len) False ∧ k = .other (Encodable.encode (Leaf58.lua off len)) := by
  induction h with
  | here n k ks rest hn =>
    intro kids he
    cases kids with
    | nil => cases he
    | cons x kids =>
      obtain ⟨m, x⟩ := x
      cases x with
      | lua off len =>
        rw [imgForest] at he
        simp only [Forest.node.injEq] at he
        obtain ⟨rfl, rfl, -, hr⟩ := he
        refine .inr ⟨m, off, len, rfl, EntryNamed.head (.inl ?_), rfl⟩
        rw [← imgForest_nms e, hr]
        rcases hn with hn | hn
        · exact hn
        · cases hn
      | prop nd =>
        obtain ⟨o, ks'⟩ := nd
        rw [imgForest, propNode] at he
        simp only [Forest.node.injEq] at he
        obtain ⟨rfl, rfl, -, hr⟩ := he
        refine .inl ⟨o, .here _ ks' m o (EntryNamed.head ?_), rfl⟩
        rw [← imgForest_nms e, hr]
        exact hn.imp_right propKind_link
  | next n k k' ks rest ms _ ih =>
    intro kids he
    cases kids with
    | nil => cases he
    | cons x kids =>
      obtain ⟨m, x⟩ := x
      have hr : imgForest e kids = rest := by
        cases x with
        | lua off len => rw [imgForest] at he; simp only [Forest.node.injEq] at he; exact he.2.2.2
        | prop nd => obtain ⟨o, ks'⟩ := nd; rw [imgForest, propNode] at he; simp only [Forest.node.injEq] at he; exact he.2.2.2
      rcases ih kids hr with ⟨o', h1, h2⟩ | ⟨m', off, len, h1, h2, h3⟩
      · exact .inl ⟨o', h1.cons _, h2⟩
      · exact .inr ⟨m', off, len, h1, EntryNamed.cons _ h2, h3⟩
  | deeper n k k' ks rest ms hn hks ih =>
    intro kids he
    cases kids with
    | nil => cases he
    | cons x kids =>
      obtain ⟨m, x⟩ := x
      cases x with
      | lua off len =>
        rw [imgForest] at he
        simp only [Forest.node.injEq] at he
        rw [← he.2.2.1] at hks
        exact (forestHas_nil hks).elim
      | prop nd =>
        obtain ⟨o, ks'⟩ := nd
        rw [imgForest, propNode] at he
        simp only [Forest.node.injEq] at he
        obtain ⟨rfl, -, hk, hr⟩ := he
        obtain ⟨o', h1, h2⟩ := propForest_has hks ks' hk
        refine .inl ⟨o', .deeper _ ks' m o o' ms (EntryNamed.head ?_) h1, h2⟩
        rw [← imgForest_nms e, hr]
        rw [h2] at hn
        exact hn.imp_right propKind_link

/-! ### images -/

theorem propKind_value {e : Env} {o : PObj} (h : ¬ IsLink o) : propKind e o = .other (Encodable.encode (Leaf58.prop o)) := by
  cases o <;> first | rfl | exact absurd ⟨_, rfl⟩ h

theorem inImage_of {e : Env} {img : Img} {fuel : Nat} {f : Forest} {ms : List (List Char)} {k : NKind} (hb : e.buf.length < 2 ^ 63)
    (hm : e.mode = .checked) (hr : readImage e fuel img = .ok f) (hf : ForestHas f ms k) : InsideImage e img ms k := by
  unfold readImage at hr
  cases hx : ((Rd.imgChildren img fuel).run e { pos := 0, saved := 0 }).1 with
  | error er => rw [hx] at hr; cases hr
  | ok kids =>
    rw [hx] at hr
    have hr' : imgForest e kids = f := by simpa [Except.map] using hr
    have ht := C72_image_shown e img fuel kids _ hb hm hx
    rcases imgForest_has hf kids hr' with ⟨o, h1, rfl⟩ | ⟨m, off, len, rfl, h2, rfl⟩
    · by_cases hl : IsLink o
      · obtain ⟨m, rfl⟩ := hl
        refine .link kids ms m _ ht h1 fun s => ?_
        constructor
        · intro hs
          cases hres : resolveMeta e m.ty m.offset m.length with
          | ok s' => rw [hres] at hs; cases hs; exact .uol m s hres
          | error _ => rw [hres] at hs; cases hs
        · intro hs
          cases hs with
          | uol _ _ hs => rw [hs]
      · rw [propKind_value hl]
        exact .value kids ms o _ ht h1 hl (Encodable.encodek _)
    · exact .script kids m off len _ ht h2 (Encodable.encodek _)

theorem inImage_became {e : Env} {img : Img} {ms : List (List Char)} {k k' : NKind} (h : InsideImage e img ms k) (hb : Became k k') : k' = k := by
  cases h <;> cases hb <;> rfl

theorem inImage_noSource {e : Env} {img : Img} {ms : List (List Char)} {k : NKind} {s : Nat} (h : InsideImage e img ms k) : ¬ HasSource k s := by
  intro hs
  cases h <;> cases hs

/-! ### archives -/

theorem standsAt_became {e : Env} {items : List (List Char × DNode)} {ns : List (List Char)} {k k' : NKind} (h : StandsAt e items ns k)
    (hb : Became k k') : StandsAt e items ns k' := by
  cases h with
  | dir _ o s src ks a b h1 h2 => cases hb; exact .dir _ o s src ks _ _ h1 h2
  | empty _ v h1 h2 => cases hb; exact .empty _ v h1 h2
  | image _ name o s src a h1 h2 h3 => cases hb; exact .image _ name o s src _ h1 h2 h3
  | inside ns ms name o s _ h1 h2 h3 =>
    rw [inImage_became h3 hb]
    exact .inside ns ms name o s k h1 h2 h3

/-- what the nodes of an archive show -/
theorem arc_comes {F : Fuel} {n fuel : Nat} {cache : List Cached} {f : WFile} {k0 k : NKind} {ns : List (List Char)}
    (hbm : ∀ items, (f.parse F n cache).1 = .ok items →
      (f.parse F n cache).2.env.buf.length < 2 ^ 63 ∧ (f.parse F n cache).2.env.mode = .checked)
    (hk0 : k0 = .file false (Encodable.encode Src58.file)) (h : ComesFrom (arcContent F n fuel cache f) k0 ns k) :
    (ns = [] ∧ ∃ b, k = .file b (Encodable.encode Src58.file)) ∨
      ∃ items, (f.parse F n cache).1 = .ok items ∧ StandsAt (f.parse F n cache).2.env items ns k := by
  induction h with
  | first k hk =>
    rw [hk0] at hk
    cases hk
    exact .inl ⟨rfl, _, rfl⟩
  | given ns ms k k1 k2 s fo _ hs hc hf hbc ih =>
    rcases ih with ⟨rfl, b, rfl⟩ | ⟨items, hi, hst⟩
    · cases hs
      unfold arcContent at hc
      rw [Encodable.encodek] at hc
      dsimp only at hc
      cases hp : (f.parse F n cache).1 with
      | error er => rw [hp] at hc; cases hc
      | ok items =>
        rw [hp] at hc
        have hc' : dirForest items = fo := by simpa [Except.map] using hc
        obtain ⟨nm, d, h1, h2, h3⟩ := dirForest_has hf items hc'
        refine .inr ⟨items, rfl, standsAt_became ?_ hbc⟩
        rw [List.nil_append]
        cases h3 with
        | image o s => exact .image ms nm o s _ _ h1 h2 (Encodable.encodek _)
        | dir o s ks => exact .dir ms o s _ ks _ _ h1 (Encodable.encodek _)
        | empty => exact .empty ms _ h1 (Encodable.encodek _)
    · refine .inr ⟨items, hi, ?_⟩
      cases hst with
      | dir _ o sz src ks a b h1 h2 =>
        cases hs
        unfold arcContent at hc
        rw [h2] at hc
        cases hc
        exact (forestHas_nil hf).elim
      | empty _ v h1 h2 => cases hs
      | image _ name o sz src a h1 h2 h3 =>
        cases hs
        unfold arcContent at hc
        rw [h3] at hc
        have := inImage_of (hbm items hi).1 (hbm items hi).2 hc hf
        rw [inImage_became this hbc]
        exact .inside ns ms name o sz k1 h1 h2 this
      | inside ns' ms' name o sz _ h1 h2 h3 => exact absurd hs (inImage_noSource h3)

/-! ### single images -/

theorem img_comes {e : Env} {fuel o s : Nat} {name : List Char} {k0 k : NKind} {ns : List (List Char)} (hb : e.buf.length < 2 ^ 63)
    (hm : e.mode = .checked) (hk0 : k0 = .image false (Encodable.encode (Src58.image name o s))) (h : ComesFrom (imgContent e fuel) k0 ns k) :
    (ns = [] ∧ ∃ b, k = .image b (Encodable.encode (Src58.image name o s))) ∨ InsideImage e ⟨name, o, s⟩ ns k := by
  induction h with
  | first k hk =>
    rw [hk0] at hk
    cases hk
    exact .inl ⟨rfl, _, rfl⟩
  | given ns ms k k1 k2 src fo _ hs hc hf hbc ih =>
    rcases ih with ⟨rfl, b, rfl⟩ | hst
    · cases hs
      unfold imgContent at hc
      rw [Encodable.encodek] at hc
      have := inImage_of hb hm hc hf
      rw [inImage_became this hbc]
      exact .inr this
    · exact absurd hs (inImage_noSource hst)

/-! ### MS archives -/

theorem msForest_names : ∀ (ims : List MsImage) (k : Nat), (msForest k ims).names = ims.map fun im => im.entry.name
  | [], _ => rfl
  | im :: ims, k => by
    have := msForest_names ims (k + 1)
    simp only [msForest, Forest.names, List.map_cons, this]

theorem msForest_has {f : Forest} {ms : List (List Char)} {kd : NKind} (h : ForestHas f ms kd) : ∀ (ims : List MsImage) (k : Nat), msForest k ims = f →
    ∃ n i im, ms = [n] ∧ ims[i]? = some im ∧ kd = .msImage (k + i) ∧ EntryNamed (ims.map fun im => (im.entry.name, im)) n im False := by
  induction h with
  | here n kd ks rest hl =>
    intro ims k he
    cases ims with
    | nil => cases he
    | cons im ims =>
      simp only [msForest, Forest.node.injEq] at he
      obtain ⟨rfl, rfl, rfl, rfl⟩ := he
      rcases hl with hl | hl
      · rw [msForest_names] at hl
        refine ⟨_, 0, im, rfl, rfl, rfl, [], ims.map fun im => (im.entry.name, im), rfl, .inr fun it hit he => hl ?_⟩
        obtain ⟨im', h1, rfl⟩ := List.mem_map.mp hit
        exact List.mem_map.mpr ⟨im', h1, he⟩
      · cases hl
  | next n kd kd' ks rest ms _ ih =>
    intro ims k he
    cases ims with
    | nil => cases he
    | cons im ims =>
      simp only [msForest, Forest.node.injEq] at he
      obtain ⟨rfl, rfl, rfl, rfl⟩ := he
      obtain ⟨n, i, im', h1, h2, h3, b, a, h4, h5⟩ := ih ims (k + 1) rfl
      refine ⟨n, i + 1, im', h1, h2, ?_, (im.entry.name, im) :: b, a, ?_, h5⟩
      · rw [h3]
        congr 1
        omega
      · rw [List.map_cons, h4]; rfl
  | deeper n kd kd' ks rest ms hl hk ih =>
    intro ims k he
    cases ims with
    | nil => cases he
    | cons im ims =>
      simp only [msForest, Forest.node.injEq] at he
      obtain ⟨rfl, rfl, rfl, rfl⟩ := he
      exact (forestHas_nil hk).elim

theorem ms_comes {m : Mode} {C : ChaCha} {ks2 : Nat → Byte} {fuel : Nat} {f : MsFile} {k0 k : NKind} {ns : List (List Char)}
    (hb : ∀ im w, f.toWzImage m C im = .ok w → w.data.length < 2 ^ 63)
    (hno : m = .wrap → ∀ ims im w, f.parse m C = .ok ims → im ∈ ims → f.toWzImage m C im = .ok w →
      readImage (msEnv .checked ks2 w.data) fuel ⟨w.name, 0, w.blockSize⟩ ≠ .error .panicOverflow)
    (hk0 : k0 = .msFile false 0) (h : ComesFrom (msContent m C ks2 fuel f) k0 ns k) :
    (ns = [] ∧ ∃ b, k = .msFile b 0) ∨
      ∃ ims, f.parse m C = .ok ims ∧
        MsStandsAt (msEnv .checked ks2) (fun im w => f.toWzImage m C im = .ok w) ims ns k := by
  induction h with
  | first k hk =>
    rw [hk0] at hk
    cases hk
    exact .inl ⟨rfl, _, rfl⟩
  | given ns ms k k1 k2 src fo _ hs hc hf hbc ih =>
    rcases ih with ⟨rfl, b, rfl⟩ | ⟨ims, hi, hst⟩
    · cases hs
      unfold msContent at hc
      dsimp only at hc
      cases hp : f.parse m C with
      | error er => rw [hp] at hc; cases hc
      | ok ims =>
        rw [hp] at hc
        have hc' : msForest 1 ims = fo := by simpa [Except.map] using hc
        obtain ⟨n, i, im, rfl, h2, rfl, h4⟩ := msForest_has hf ims 1 hc'
        refine .inr ⟨ims, rfl, ?_⟩
        rw [List.nil_append]
        refine .image n im i k2 h2 h4 ?_
        rwa [Nat.add_comm i 1]
    · refine .inr ⟨ims, hi, ?_⟩
      cases hst with
      | inside n im w ms' _ h1 h2 h3 => exact absurd hs (inImage_noSource h3)
      | image n im i _ h1 h2 h3 =>
        have hsrc : src = i + 1 := by
          cases h3 <;> cases hs <;> rfl
        subst hsrc
        unfold msContent at hc
        dsimp only at hc
        rw [hi] at hc
        replace hc : (match ims[i]? with
          | none => .error (.lib "not a source")
          | some im => msImageForest m C ks2 fuel f im) = Except.ok (ε := Err) fo := hc
        rw [h1] at hc
        dsimp only at hc
        unfold msImageForest at hc
        cases hw : f.toWzImage m C im with
        | error er => rw [hw] at hc; cases hc
        | ok w =>
          rw [hw] at hc
          have hc' : readImage (msEnv m ks2 w.data) fuel ⟨w.name, 0, w.blockSize⟩ = .ok fo := hc
          have hl : (msEnv .checked ks2 w.data).buf.length < 2 ^ 63 := by
            unfold msEnv
            dsimp only
            split
            · decide
            · exact hb im w hw
          have hc2 : readImage (msEnv .checked ks2 w.data) fuel ⟨w.name, 0, w.blockSize⟩ = .ok fo := by
            cases m with
            | checked => exact hc'
            | wrap =>
              have := readImage_ag (k := (msEnv .checked ks2 w.data).ks) (k2 := ks2) hl fuel ⟨w.name, 0, w.blockSize⟩
              rcases this with h | h
              · exact absurd h (hno rfl ims im w hi (List.mem_of_getElem? h1) hw)
              · exact h.trans hc'
          have := inImage_of hl rfl hc2 hf
          rw [inImage_became this hbc]
          exact .inside n im w ms k1 h2 hw this

/-! ### builds without overflow checks -/

theorem comes_checked {F : Fuel} {n fuel : Nat} {cache : List Cached} {f : WFile} {k0 k : NKind} {ns : List (List Char)}
    (hb : f.env.buf.length < 2 ^ 63) (hno : NoOverflows F n fuel cache f)
    (hbm : ∀ items, ((fileIn .checked f).parse F n cache).1 = .ok items →
      ((fileIn .checked f).parse F n cache).2.env.buf.length < 2 ^ 63 ∧ ((fileIn .checked f).parse F n cache).2.env.mode = .checked)
    (hk0 : k0 = .file false (Encodable.encode Src58.file)) (h : ComesFrom (arcContent F n fuel cache (fileIn .wrap f)) k0 ns k) :
    ComesFrom (arcContent F n fuel cache (fileIn .checked f)) k0 ns k := by
  induction h with
  | first k hk => exact .first k hk
  | given ns ms k k1 k2 s fo _ hs hc hf hbc ih =>
    refine .given ns ms k k1 k2 s fo ih hs ?_ hf hbc
    rcases arcContent_ag F n fuel cache f hb hno.1 s with h | h
    · exfalso
      replace h : arcContent F n fuel cache (fileIn .checked f) s = .error .panicOverflow := h
      rcases arc_comes hbm hk0 ih with ⟨-, b, rfl⟩ | ⟨items, hi, hst⟩
      · cases hs
        unfold arcContent at h
        rw [Encodable.encodek] at h
        dsimp only at h
        cases hp : ((fileIn .checked f).parse F n cache).1 with
        | error er =>
          rw [hp] at h
          cases h
          exact hno.1 hp
        | ok items => rw [hp] at h; cases h
      · cases hst with
        | dir _ o sz src ks a b h1 h2 =>
          cases hs
          unfold arcContent at h
          rw [h2] at h
          cases h
        | empty _ v h1 h2 => cases hs
        | image _ name o sz src a h1 h2 h3 =>
          cases hs
          unfold arcContent at h
          rw [h3] at h
          exact hno.2 items ns name o sz hi h1 h2 h
        | inside ns' ms' name o sz _ h1 h2 h3 => exact absurd hs (inImage_noSource h3)
    · exact h.trans hc

theorem img_comes_checked {e : Env} {fuel o s : Nat} {name : List Char} {k0 k : NKind} {ns : List (List Char)} (hb : e.buf.length < 2 ^ 63)
    (hno : readImage (readerIn .checked e.buf e.ks e.ks2) fuel ⟨name, o, s⟩ ≠ .error .panicOverflow)
    (hk0 : k0 = .image false (Encodable.encode (Src58.image name o s)))
    (h : ComesFrom (imgContent (readerIn .wrap e.buf e.ks e.ks2) fuel) k0 ns k) :
    ComesFrom (imgContent (readerIn .checked e.buf e.ks e.ks2) fuel) k0 ns k := by
  induction h with
  | first k hk => exact .first k hk
  | given ns ms k k1 k2 src fo _ hs hc hf hbc ih =>
    refine .given ns ms k k1 k2 src fo ih hs ?_ hf hbc
    rcases img_comes (e := readerIn .checked e.buf e.ks e.ks2) hb rfl hk0 ih with ⟨-, b, rfl⟩ | hst
    · cases hs
      unfold imgContent at hc ⊢
      rw [Encodable.encodek] at hc ⊢
      rcases readImage_ag hb fuel ⟨name, o, s⟩ with h | h
      · exact absurd h hno
      · exact h.trans hc
    · exact absurd hs (inImage_noSource hst)

/-! ### what it gives -/

theorem mapsOk_readHistory {content : Content} {h g : NHeap} (hm : MapsOk h) (hh : ReadHistory content h g) : MapsOk g := by
  induction hh with
  | start => exact hm
  | call g g' _ hc ih =>
    have K := mapsOk_carried content
    cases hc with
    | parse i => exact K.parse g i ih
    | unparse i => exact K.unparse g i ih
    | find i path => exact Carried.atPathParsed K g i path ih
    | walk i fuel vs g' hw => exact Carried.walkForce K fuel g [] i vs g' hw ih
    | picture png text fuel i => exact Carried.getImage K png text fuel g [] i ih

theorem kept_readHistory {content : Content} {h g : NHeap} (hh : ReadHistory content h g) : Kept h g := by
  induction hh with
  | start => exact Kept.refl _
  | call g g' _ hc ih =>
    have K := kept_carried content
    refine ih.trans ?_
    cases hc with
    | parse i => exact K.parse g i
    | unparse i => exact K.unparse g i
    | find i path => exact Carried.atPathParsed K g i path
    | walk i fuel vs g' hw => exact Carried.walkForce K fuel g [] i vs g' hw
    | picture png text fuel i => exact Carried.getImage K png text fuel g [] i

theorem place_chain {g : NHeap} {name : List Char} (h0 : ∃ c, g.cell 0 = some c ∧ c.name = name ∧ c.parent = none) {j : Nat} {ns : List (List Char)}
    (hp : PlacedAt g 0 j ns) : ∃ l, Chain g j l ∧ NamesOf g l (ns.reverse ++ [name]) ∧ l.length = ns.length + 1 := by
  induction hp with
  | top c hc =>
    obtain ⟨c', h1, h2, h3⟩ := h0
    refine ⟨[0], .root 0 ?_, .cons 0 name [] [] ⟨c', h1, h2⟩ .nil, rfl⟩
    rintro p ⟨d, _, h4, h5, -⟩
    rw [h1] at h4
    cases h4
    rw [h3] at h5
    cases h5
  | under j p n ns h1 h2 _ ih =>
    obtain ⟨l, k1, k2, k3⟩ := ih
    refine ⟨j :: l, .up j p l h1 k1, ?_, by simp [k3]⟩
    rw [List.reverse_append]
    exact .cons j n l _ h2 k2

/-- everything there is to say, from what is said of values -/
theorem everyNode {content : Content} {k0 : NKind} {name : List Char} {g : NHeap} {S : List (List Char) → NKind → Prop}
    (hh : ReadHistory content [some ⟨name, k0, none, []⟩] g)
    (hS : ∀ ns k, ComesFrom content k0 ns k → (ns = [] ∧ Became k0 k) ∨ S ns k) : EveryNodeStands name S g := by
  have G := (grounded_one content name k0).history hh
  obtain ⟨c0, t1, t2⟩ := G.top
  have hname : c0.name = name := by
    obtain ⟨d, h1, h2, -⟩ := kept_readHistory hh 0 _ rfl
    rw [t1] at h1
    cases h1
    exact h2
  have hm : MapsOk g := mapsOk_readHistory (by
    intro i c hc
    cases i with
    | zero => cases hc; exact List.nodup_nil
    | succ i => cases hc) hh
  refine ⟨?_, ?_, ?_, ?_⟩
  · intro j ns c hp hn hc
    rcases hS ns c.kind (G.comes hp hc) with ⟨h, -⟩ | h
    · exact absurd h hn
    · exact h
  · intro i ns n j c hp hch hc
    obtain ⟨h1, h2⟩ := G.listed hp hch hc
    refine ⟨h1, h2.imp id ?_⟩
    rintro ⟨t, ht⟩
    rcases hS _ _ ht with ⟨h, -⟩ | h
    · simp at h
    · exact ⟨t, h⟩
  · intro path j c ha hc
    obtain ⟨ns, -, hs⟩ := (Props.C25_at_path hm 0 j path).mp ha
    exact G.reached hs (.top c0 t1) hc
  · intro j ns fuel hp hf
    obtain ⟨l, k1, k2, k3⟩ := place_chain ⟨c0, t1, hname, t2⟩ hp
    have := Props.C25_full_path k1 k2 (fuel := fuel) (by omega)
    rw [this]
    simp

end Wz
