import Verif.Lemmas.XmlParse
import Verif.Spec.XmlText
import Verif.Props.Files
import Verif.Props.Subscripts

/-!
# C114, C115: documents survive as text

These theorems are about the text itself, so that the laws assumed of `Codec` in `Props/Files.lean` are proved
here for XML and UTF-8; only gzip is left.
-/

namespace Sang
open Spec

theorem texts_ne (ks : List Node) : texts ks ≠ [] := by
  cases ks with
  | nil => simp [texts]
  | cons x r =>
    cases x with
    | text s => rw [texts]; split <;> simp
    | tag => simp [texts]

theorem texts_readText (s : Str) : texts (readText s) = [textAsRead s] := by
  rw [readText_eq, textRun, textAsRead]
  by_cases h : newlines s = []
  · simp [h, texts]
  · by_cases h2 : (newlines s).all asciiSpace = true
    · by_cases h3 : '\n' ∈ newlines s
      · simp [h, h2, h3, texts]
      · simp [h, h2, h3, texts]
    · simp [h, h2, texts]

theorem texts_append_tag (s : Str) (n : String) (a : Attrs) (ks r : List Node) :
    texts (readText s ++ .tag n a ks :: r) = textAsRead s :: texts r := by
  have h := texts_readText s
  have hform : readText s = [] ∨ ∃ t, readText s = [.text t] := by
    rw [readText_eq, textRun]
    split
    · exact .inl rfl
    split
    · exact .inr ⟨_, rfl⟩
    · exact .inr ⟨_, rfl⟩
  rcases hform with h' | ⟨t, h'⟩ <;> rw [h'] at h ⊢
  · simp only [texts] at h
    injection h with h
    rw [List.nil_append, texts, h]
  · simp only [texts] at h
    injection h with h
    simp only [List.append_nil] at h
    simp [texts, h]

theorem texts_reloadKids (F : Fl) : ∀ (ks : List Node) (acc : Str),
    texts (Node.reloadKids F acc ks) = (texts (.text acc :: ks)).map textAsRead
  | [], acc => by rw [Node.reloadKids, texts_readText]; simp [texts]
  | .text s :: r, acc => by
    rw [Node.reloadKids, texts_reloadKids F r]
    simp only [texts]
    cases h : texts r with
    | nil => exact absurd h (texts_ne r)
    | cons t ts => simp
  | .tag n a ks :: r, acc => by
    rw [Node.reloadKids, Node.reload, texts_append_tag, texts_reloadKids F r]
    simp only [texts]
    cases h : texts r with
    | nil => exact absurd h (texts_ne r)
    | cons t ts => simp

theorem elements_readText (s : Str) : elements (readText s) = [] := by
  rw [readText_eq, textRun]
  split
  · rfl
  split <;> rfl

theorem elements_append (a b : List Node) : elements (a ++ b) = elements a ++ elements b :=
  List.filter_append _ _

theorem elements_reloadKids (F : Fl) : ∀ (ks : List Node) (acc : Str),
    elements (Node.reloadKids F acc ks) = (elements ks).map (Node.reload F)
  | [], acc => by rw [Node.reloadKids, elements_readText]; rfl
  | .text s :: r, acc => by
    rw [Node.reloadKids, elements_reloadKids F r]; rfl
  | .tag n a ks :: r, acc => by
    rw [Node.reloadKids, elements_append, elements_readText, List.nil_append]
    rw [show Node.reload F (.tag n a ks) :: Node.reloadKids F [] r =
      [Node.reload F (.tag n a ks)] ++ Node.reloadKids F [] r from rfl, elements_append,
      elements_reloadKids F r]
    rfl

theorem texts_sorted : ∀ ks : List Node, texts (Node.sortedKids ks) = texts ks
  | [] => rfl
  | .text s :: r => by rw [Node.sortedKids, Node.sorted, texts, texts, texts_sorted r]
  | .tag n a ks :: r => by rw [Node.sortedKids, Node.sorted, texts, texts, texts_sorted r]

mutual
theorem readBack_reload (F : Fl) : ∀ (x : Node), x.isTag = true → ReadBack F x (x.sorted.reload F)
  | .text _, h => by simp [Node.isTag] at h
  | .tag n a ks, _ => by
    rw [Node.sorted, Node.reload]
    refine .mk ((sortAttrs_perm a).map _) ?_ ?_
    · rw [texts_reloadKids, texts]
      cases h : texts (Node.sortedKids ks) with
      | nil => exact absurd h (texts_ne _)
      | cons t ts => rw [← texts_sorted ks, h]; rfl
    · rw [elements_reloadKids]
      exact readBackAll_reload F ks

theorem readBackAll_reload (F : Fl) : ∀ (ks : List Node),
    ReadBackAll F (elements ks) ((elements (Node.sortedKids ks)).map (Node.reload F))
  | [] => .nil
  | .text _ :: r => readBackAll_reload F r
  | .tag n a ks :: r => .cons (readBack_reload F (.tag n a ks) rfl) (readBackAll_reload F r)
end

/-- C114. A document whose names and characters XML allows, and in which no element has two
attributes of one name, is readable once written: every element comes back with its name, its
attributes as text, its child elements in order, and the text around them. `e` says which empty elements
get an end-tag. -/
theorem c114_write_read {F : Fl} (e : Node → Bool) {x : Node} (h : x.XmlOk F) (ht : x.isTag = true) :
    ∃ y, parseXml (docText F e x) = .ok y ∧ ReadBack F x y :=
  ⟨_, parse_docText h ht, readBack_reload F x ht⟩

/-- C114. Through the bytes of the file, too. -/
theorem c114_write_read_bytes {F : Fl} (e : Node → Bool) {x : Node} (h : x.XmlOk F) (ht : x.isTag = true) :
    ∃ s y, unUtf8 (utf8 (docText F e x)) = .ok s ∧ parseXml s = .ok y ∧ ReadBack F x y :=
  ⟨_, _, unUtf8_utf8 _, parse_docText h ht, readBack_reload F x ht⟩

/-- A small document with both kinds of quotes, a line end in an attribute, and markup in text. -/
def exXml : Node :=
  .tag "canvas" [("width", .int 480), ("desc", .str "\"it's\"\r\n".toList)]
    [.text "a<b".toList, .text "&\r".toList, .text "\nc".toList, .tag "x" [] [], .text " \t ".toList]

theorem exXml_ok : exXml.XmlOk double := by
  refine ⟨⟨by decide, by decide⟩, ⟨by decide, ?_⟩, ?_⟩
  · intro p hp
    simp only [List.mem_cons, List.not_mem_nil, or_false] at hp
    rcases hp with rfl | rfl
    · exact ⟨⟨by decide, by decide⟩, by decide +kernel⟩
    · exact ⟨⟨by decide, by decide⟩, by decide +kernel⟩
  · refine ⟨?_, ?_, ?_, ⟨⟨by decide, by decide⟩, ⟨by decide, by simp⟩, trivial⟩, ?_, trivial⟩ <;>
      (rw [Node.XmlOk]; decide +kernel)

example : ∃ y, parseXml (docText double (fun _ => true) exXml) = .ok y ∧ ReadBack double exXml y :=
  c114_write_read _ exXml_ok rfl

example : parseXml (docText double (fun _ => true) exXml) = .ok (.tag "canvas"
    [("desc", .str "\"it's\" ".toList), ("width", .str "480".toList)]
    [.text "a<b&\nc".toList, .tag "x" [] [], .text " ".toList]) := by decide +kernel

mutual
theorem sameButOrder_sorted : ∀ x : Node, SameButOrder x x.sorted
  | .text s => .text s
  | .tag _ a ks => .tag (sortAttrs_perm a).symm (sameButOrderAll_sorted ks)

theorem sameButOrderAll_sorted : ∀ ks : List Node, SameButOrderAll ks (Node.sortedKids ks)
  | [] => .nil
  | x :: r => .cons (sameButOrder_sorted x) (sameButOrderAll_sorted r)
end

/-- C115. Whatever document was opened, if character references have put nothing in it which only they can, saving it
and opening it again gives the same document, but for the order of attributes; and saving that gives the same text. -/
theorem c115_opened_survives_partial (F : Fl) {s : Str} {x : Node} (h : parseXml s = .ok x) (hd : Direct x) :
    ∃ y, parseXml (docText F (fun _ => true) x) = .ok y ∧ SameButOrder x y ∧
      docText F (fun _ => true) y = docText F (fun _ => true) x := by
  obtain ⟨ht, hi⟩ := parse_tidy h hd
  refine ⟨x.sorted, ?_, sameButOrder_sorted x, ?_⟩
  · rw [parse_docText (ht.xmlOk F) hi, (Node.Tidy.sorted ht).reload F]
  · exact congrArg (_ ++ ·) (xml_sorted F true x)

/-- C115. So the order can't be noticed when an attribute is looked up. -/
theorem c115_lookup {s : Str} {n : String} {a : Attrs} {ks : List Node} (h : parseXml s = .ok (.tag n a ks))
    {y : Node} (hy : SameButOrder (.tag n a ks) y) (k : String) : y.attrs.get k = a.get k := by
  obtain ⟨ht, -⟩ := parse_read h
  have hnd := ht.2.1.1
  cases hy with
  | tag hp _ =>
    rw [Node.attrs, Attrs.get, Attrs.get]
    exact (lookup_perm hnd hp k).symm

example : parseXml "<a y='2' x='1'>\n <b></b></a>".toList =
    .ok (.tag "a" [("y", .str ['2']), ("x", .str ['1'])] [.text ['\n'], .tag "b" [] []]) := by decide +kernel

/-! ## Files

The laws which `Props/Files.lean` assumes, for XML. -/

/-- The documents that can be written. -/
def XmlDoc (F : Fl) : Type := { x : Node // x.XmlOk F ∧ x.isTag = true }

/-- The serializer and the parser, and some gzip. `sangfroid/format.py:138-139,153-158`. -/
def xmlCodec (F : Fl) (e : Node → Bool) (gzip : Bytes → Bytes) (gunzip : Bytes → Res Bytes)
    (canOpen : Str → Bool) : Codec (XmlDoc F) where
  render d := .ok (utf8 (docText F e d.1))
  parse b := match unUtf8 b with
    | .error e => .error e
    | .ok s => match h : parseXml s with
      | .error e => .error e
      | .ok y => .ok ⟨y, (parse_read h).1.xmlOk F, (parse_read h).2⟩
  gzip := gzip
  gunzip := gunzip
  canOpen := canOpen

/-- What a document reads as. -/
def XmlDoc.norm {F : Fl} (d : XmlDoc F) : XmlDoc F :=
  ⟨d.1.sorted.reload F, (parse_read (parse_docText (e := fun _ => true) d.2.1 d.2.2)).1.xmlOk F,
    (parse_read (parse_docText (e := fun _ => true) d.2.1 d.2.2)).2⟩

theorem xmlCodec_parse {F : Fl} {e gzip gunzip canOpen} {b : Bytes} {s : Str} {y : Node} (hb : unUtf8 b = .ok s)
    (hs : parseXml s = .ok y) : ∃ p, (xmlCodec F e gzip gunzip canOpen).parse b = .ok ⟨y, p⟩ := by
  refine ⟨⟨(parse_read hs).1.xmlOk F, (parse_read hs).2⟩, ?_⟩
  simp only [xmlCodec, hb]
  split
  · rename_i e h; rw [hs] at h; cases h
  · rename_i z h; rw [hs] at h; injection h with h; subst h; rfl

theorem utf8_docText (F : Fl) (e : Node → Bool) (x : Node) :
    ∃ r, utf8 (docText F e x) = 0x3c :: 0x3f :: r := by
  have : ∀ y : Str, ∃ r, utf8 ("<?xml version=\"1.0\" encoding=\"utf-8\"?>\n".toList ++ y) = 0x3c :: 0x3f :: r := by
    intro y
    rw [decl_chars]
    exact ⟨_, rfl⟩
  exact this _

/-- XML and UTF-8 obey the laws; gzip must. -/
theorem xmlCodec_lawful (F : Fl) (e : Node → Bool) {gzip : Bytes → Bytes} {gunzip : Bytes → Res Bytes}
    (canOpen : Str → Bool) (h1 : ∀ b, gunzip (gzip b) = .ok b)
    (h2 : ∀ b, ∃ r, gzip b = 0x1f :: 0x8b :: r) :
    (xmlCodec F e gzip gunzip canOpen).Lawful XmlDoc.norm where
  parse_render d b h := by
    injection h with h
    subst h
    obtain ⟨p, hp⟩ := xmlCodec_parse (F := F) (e := e) (gzip := gzip) (gunzip := gunzip) (canOpen := canOpen)
      (unUtf8_utf8 _) (parse_docText (e := e) d.2.1 d.2.2)
    exact hp
  xml_magic d b h := by
    injection h with h
    subst h
    exact utf8_docText _ _ _
  gunzip_gzip := h1
  gzip_magic := h2

/-- C15, with the text of the file. If `save(name)` of a document that can be written succeeds, then opening
`name` gives the document as it reads back. Of gzip it is assumed that it undoes its own work and
writes its header. -/
theorem c15_save_then_open_xml {F : Fl} (e : Node → Bool) {gzip : Bytes → Bytes}
    {gunzip : Bytes → Res Bytes} {canOpen : Str → Bool} (h1 : ∀ b, gunzip (gzip b) = .ok b)
    (h2 : ∀ b, ∃ r, gzip b = 0x1f :: 0x8b :: r) (fs : Disk) (a : Anim (XmlDoc F)) (p : Str)
    (h : (a.save (xmlCodec F e gzip gunzip canOpen) fs (some p)).res = .ok ()) :
    ∃ f y, Anim.load (xmlCodec F e gzip gunzip canOpen)
        (a.save (xmlCodec F e gzip gunzip canOpen) fs (some p)).disk p = .ok ⟨f, some p, y⟩ ∧
      ReadBack F a.doc.1 y.1 := by
  obtain ⟨⟨f, hl, -⟩, -⟩ := c15_save_then_open (xmlCodec_lawful F e canOpen h1 h2) fs a p h
  exact ⟨f, _, hl, readBack_reload F a.doc.1 a.doc.2.2⟩

/-- C115, with files: an animation (with nothing in it which only character references can put there) opened from one
file and saved to another opens from there as the same
document, but for the order of attributes. -/
theorem c115_resave_partial {F : Fl} {gzip : Bytes → Bytes} {gunzip : Bytes → Res Bytes} {canOpen : Str → Bool}
    (h1 : ∀ b, gunzip (gzip b) = .ok b) (h2 : ∀ b, ∃ r, gzip b = 0x1f :: 0x8b :: r) (fs : Disk) (p q : Str)
    (a : Anim (XmlDoc F))
    (hl : Anim.load (xmlCodec F (fun _ => true) gzip gunzip canOpen) fs q = .ok a)
    (hdir : Direct a.doc.1)
    (h : (a.save (xmlCodec F (fun _ => true) gzip gunzip canOpen) fs (some p)).res = .ok ()) :
    ∃ f y, Anim.load (xmlCodec F (fun _ => true) gzip gunzip canOpen)
        (a.save (xmlCodec F (fun _ => true) gzip gunzip canOpen) fs (some p)).disk p =
          .ok ⟨f, some p, y⟩ ∧
      SameButOrder a.doc.1 y.1 := by
  obtain ⟨⟨f, hl', -⟩, -⟩ := c15_save_then_open (xmlCodec_lawful F (fun _ => true) canOpen h1 h2) fs a p h
  refine ⟨f, _, hl', ?_⟩
  have hparse : ∀ b d, (xmlCodec F (fun _ => true) gzip gunzip canOpen).parse b = .ok d →
      Direct d.1 → d.1.Tidy := by
    intro b d hd hdir
    simp only [xmlCodec] at hd
    split at hd
    · cases hd
    split at hd
    · cases hd
    · rename_i hs
      injection hd with hd; subst hd
      exact (parse_tidy hs hdir).1
  have ht : a.doc.1.Tidy := by
    unfold Anim.load at hl
    split at hl
    · cases hl
    · cases hl
    · split at hl
      · cases hl
      · rename_i hd; injection hl with hl; subst hl; exact hparse _ _ hd hdir
    · split at hl
      · cases hl
      split at hl
      · cases hl
      · rename_i hd; injection hl with hl; subst hl; exact hparse _ _ hd hdir
    · cases hl
    · cases hl
  have : a.doc.norm.1 = a.doc.1.sorted := (Node.Tidy.sorted ht).reload F
  rw [this]
  exact sameButOrder_sorted _

/-- A gzip which obeys the laws. -/
def exGunzip : Bytes → Res Bytes
  | 0x1f :: 0x8b :: r => .ok r
  | _ => .error .value

/-- A codec which obeys the laws. -/
def exXmlCodec : Codec (XmlDoc double) :=
  xmlCodec double (fun _ => true) (fun b => 0x1f :: 0x8b :: b) exGunzip (fun _ => true)

/-- A new animation with that document. -/
def exXmlAnim : Anim (XmlDoc double) := ⟨.blank, none, ⟨exXml, exXml_ok, rfl⟩⟩

theorem exXml_saves : (exXmlAnim.save exXmlCodec (fun _ => none) (some "a.sifz".toList)).res = .ok () := by
  decide +kernel

example : ∃ f y, Anim.load exXmlCodec
      (exXmlAnim.save exXmlCodec (fun _ => none) (some "a.sifz".toList)).disk "a.sifz".toList =
        .ok ⟨f, some "a.sifz".toList, y⟩ ∧
      ReadBack double exXmlAnim.doc.1 y.1 :=
  c15_save_then_open_xml (F := double) (fun _ => true) (gzip := fun b => 0x1f :: 0x8b :: b)
    (gunzip := exGunzip) (canOpen := fun _ => true) (fun _ => rfl) (fun _ => ⟨_, rfl⟩) (fun _ => none)
    exXmlAnim "a.sifz".toList exXml_saves

end Sang
