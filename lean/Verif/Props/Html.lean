import Verif.Examples.Html

/-!
# The formatted text example: property C44
-/

set_option autoImplicit false

namespace Verif.Props

open Html

/-- Scanning a well-nested document, possibly with declarations at its
beginning, yields its characters, each in the context of the tags enclosing it. -/
theorem C44_scan (ds : List (Str × Tag)) (hds : ∀ d ∈ ds, OpenText d.1 d.2) (d : Doc)
    (hd : d.Nested) :
    scanHtml (declText ds ++ d.text) = some (d.chars (ds.map (·.2))) := by
  obtain ⟨f1, h1⟩ := scan_doc d (ds.map (·.2)) [] [] hd ⟨1, rfl⟩
  obtain ⟨f2, h2⟩ := scan_decl ds [] d.text _ hds ⟨f1, by simpa using h1⟩
  exact scan_enough f2 [] _ _ h2

/-- For every well-nested document, declarations being allowed at its
beginning, and every sequence of its characters (a reordering, as in `main`, but
also with omissions or repetitions), the HTML produced parses to the same
characters in the same contexts.  (Partial: for documents that are well nested as defined by `Doc.Nested`;
`C44_violated` shows what is excluded.) -/
theorem C44_faithful_partial (ds : List (Str × Tag)) (hds : ∀ d ∈ ds, OpenText d.1 d.2) (d : Doc)
    (hd : d.Nested) (chars cs : List Chr) (hscan : scanHtml (declText ds ++ d.text) = some chars)
    (hcs : ∀ c ∈ cs, c ∈ chars) :
    scanHtml (produceHtml cs) = some cs := by
  rw [C44_scan ds hds d hd] at hscan
  cases hscan
  refine scan_produceHtml (ds.map (·.2)) ?_ cs ?_
  · intro t ht
    obtain ⟨x, hx, rfl⟩ := List.mem_map.1 ht
    exact ⟨(hds x hx).readable, .inl (hds x hx).closed⟩
  · intro c hc
    have := Doc.chars_ok d (ds.map (·.2)) [] hd (by simp) c (by simpa using hcs c hc)
    exact this

/-- For every document at all that has been scanned, and every sequence of its characters, if no
character is an opening angle, and no tag is a declaration or has a name with open
quotes (except that the declarations of `p` enclose all the characters), the
HTML produced parses to the same characters in the same contexts.  (Partial: because of these conditions.) -/
theorem C44_any_document_partial (doc : Str) (chars cs : List Chr) (p : Ctx)
    (hscan : scanHtml doc = some chars) (hcs : ∀ c ∈ cs, c ∈ chars)
    (hcode : ∀ c ∈ cs, c.1 ≠ '<')
    (hquotes : ∀ c ∈ cs, ∀ t ∈ c.2, walk false t.name = some false)
    (hdecl : ∀ c ∈ cs, ∃ b, c.2 = p ++ b ∧ ∀ t ∈ b, t.name.head? ≠ some '!') :
    scanHtml (produceHtml cs) = some cs := by
  have hread := scan_readable _ _ _ _ (by simp) hscan
  cases cs with
  | nil => rfl
  | cons c cs =>
    refine scan_produceHtml p ?_ _ ?_
    · intro t ht
      obtain ⟨b, hb, _⟩ := hdecl c (by simp)
      have hmem : t ∈ c.2 := by rw [hb]; simp [ht]
      exact ⟨hread c (hcs c (by simp)) t hmem, .inl (hquotes c (by simp) t hmem)⟩
    · intro x hx
      obtain ⟨b, hb, hnd⟩ := hdecl x hx
      refine ⟨hcode x hx, b, hb, fun t ht => ?_⟩
      have hmem : t ∈ x.2 := by rw [hb]; simp [ht]
      exact ⟨hread x (hcs x hx) t hmem, hquotes x hx t hmem, hnd t ht⟩

/-- Whatever the characters and contexts, the HTML produced is a sequence of
these characters and of tags that are balanced: each closing tag closes the
innermost open one, and no tag (other than declarations) is left open. -/
theorem C44_balanced (cs : List Chr) :
    ∃ ps : List Piece, produceHtml cs = ps.flatMap Piece.text ∧ Balanced [] ps ∧
      ps.filterMap Piece.chr? = cs.map (·.1) := by
  obtain ⟨ps, h1, h2, h3⟩ := balanced_produce cs []
  exact ⟨ps, h1.symm, by simpa [names] using h2, h3⟩

/-- Blanks are tabulators, line feeds, carriage returns and spaces: a name ends at the first of these, and what follows them are the
properties. -/
theorem C44_blanks (n p : Str) (b c : Char) (hn : IsName n) (hs : n.head? ≠ some '/') (hb : b ∈ ['\t', '\n', '\r', ' '])
    (hc : c ∉ ['\t', '\n', '\r', ' ']) (hp : walk false (c :: p) = some false) (x : Char) (hx : x ≠ '<') :
    scanHtml ('<' :: (n ++ b :: c :: p) ++ ['>', x]) = some [(x, [⟨n.map small, c :: p⟩])] := by
  have hb' : ws b = true := by
    simp only [List.mem_cons, List.not_mem_nil, or_false] at hb
    rcases hb with rfl | rfl | rfl | rfl <;> rfl
  have hc' : ws c = false := by
    simp only [List.mem_cons, List.not_mem_nil, or_false, not_or] at hc
    simp [ws, hc]
  have ho : OpenText (n ++ b :: c :: p) ⟨n.map small, c :: p⟩ :=
    ⟨[], n, [b], by simp, by simp, hn, hs, by simpa using hb', rfl, .inr ⟨by simp, c, p, rfl, hc'⟩, hp⟩
  have := C44_scan [(n ++ b :: c :: p, ⟨n.map small, c :: p⟩)] (by simpa using ho) (.chr x .nil) ⟨hx, trivial⟩
  simpa [declText, Doc.text, Doc.chars] using this

example : scanHtml "<A\thref=\"x y\">z".toList = some [('z', [⟨"a".toList, "href=\"x y\"".toList⟩])] :=
  C44_blanks "A".toList "ref=\"x y\"".toList '\t' 'h' ⟨by decide, by decide⟩ (by decide) (by decide) (by decide) (by decide) 'z' (by decide)

/-- Scanning is defined for every ASCII document that does not end in an
opening angle. -/
theorem C44_defined (doc : Str) (ha : ∀ c ∈ doc, c.toNat < 128) (hl : doc.getLast? ≠ some '<') :
    ∃ chars, scanHtml doc = some chars :=
  Option.isSome_iff_exists.1 (scan_defined _ [] doc (by omega) ha hl)

/-! ## Documents that are not well nested -/

/-- Scanning as text: the codes, and the names of the tags around each.  (No code of its own:
used to state a property or an example.) -/
def view (s : String) : Option (List (Char × List String)) :=
  (scanHtml s.toList).map (·.map fun c => (c.1, c.2.map fun t => String.ofList t.name))

/-- Scan, reorder, produce.  (No code of its own: used to state a property or an example.) -/
def edit (f : List Chr → List Chr) (s : String) : Option String :=
  (scanHtml s.toList).map fun cs => String.ofList (produceHtml (f cs))

/-- An ASCII document is read beyond its end exactly if it ends in an odd number of opening
angles: an angle that begins no tag makes the next character, even another angle, be taken as it
is. -/
theorem C44_defined_exact (doc : Str) (ha : ∀ c ∈ doc, c.toNat < 128) :
    scanHtml doc = none ↔ ∃ a n, doc = a ++ List.replicate (2 * n + 1) '<' ∧ a.getLast? ≠ some '<' := by
  have h := scan_exact _ [] doc (Nat.lt_succ_self _) ha
  obtain ⟨a, e, hl⟩ := anglesAtEnd_split doc
  constructor
  · intro hn
    have hne : anglesAtEnd doc % 2 = 1 := by
      have : ¬anglesAtEnd doc % 2 = 0 := fun h0 => by
        have := h.2 h0
        rw [show scan _ [] doc = none from hn] at this
        cases this
      omega
    exact ⟨a, anglesAtEnd doc / 2, by rw [show 2 * (anglesAtEnd doc / 2) + 1 = anglesAtEnd doc by omega]; exact e, hl⟩
  · rintro ⟨b, n, e', hb⟩
    have hk : anglesAtEnd doc = 2 * n + 1 := by rw [e', anglesAtEnd_replicate hb]
    have hs : ¬(scan (doc.length + 1) [] doc).isSome = true := fun hs => by
      have := h.1 hs
      omega
    simpa [scanHtml] using hs

example : scanHtml "<b>x</b> 1<<<".toList = none :=
  (C44_defined_exact _ (by decide)).2 ⟨"<b>x</b> 1".toList, 1, by decide, by decide⟩

example : view "1<<" = some [('1', []), ('<', [])] := by decide +kernel

/-- The property does not hold for all documents.  A declaration in the middle is never
closed: after reversing the text, it encloses more.  A name with an open quote, and an angle
that does not begin a tag, are not read back.  A document ending in an opening angle is read
beyond its end, and non-ASCII characters in a name are passed to `tolower`. -/
theorem C44_violated :
    (view "a<!-- x -->b" = some [('a', []), ('b', ["!--"])] ∧
      edit List.reverse "a<!-- x -->b" = some "<!-- x -->ba" ∧
      view "<!-- x -->ba" = some [('b', ["!--"]), ('a', ["!--"])]) ∧
    (view "<a\"b c\"d>x" = some [('x', ["a\"b"])] ∧
      edit id "<a\"b c\"d>x" = some "<a\"b c\"d>x</a\"b>" ∧
      view "<a\"b c\"d>x</a\"b>" ≠ view "<a\"b c\"d>x") ∧
    (view "<<x" = some [('<', []), ('x', [])] ∧ edit id "<<x" = some "<x" ∧
      view "<x" = some [('x', [])]) ∧
    view "a<" = none ∧ view "<é>" = none := by
  refine ⟨⟨?_, ?_, ?_⟩, ⟨?_, ?_, ?_⟩, ⟨?_, ?_, ?_⟩, ?_, ?_⟩ <;> decide +kernel

/-! ## Cases -/

/-- A document with attributes, blanks, capital letters and nested elements.  (No code of its
own: used to state a property or an example.) -/
def page : Doc :=
  .chr '\n' (.elem "P class=\"a>b\"".toList ⟨"p".toList, "class=\"a>b\"".toList⟩
    (.chr 'x' (.elem "b".toList ⟨"b".toList, []⟩ (.chr 'y' .nil) "/B ".toList (.chr 'z' .nil)))
    "/p".toList (.chr '>' .nil))

/-- It is well nested. -/
example : page.Nested := by
  refine ⟨by decide, ⟨[], "P".toList, " ".toList, by decide, by decide, ?_, by decide, by decide,
    by decide, .inr ⟨by decide, 'c', "lass=\"a>b\"".toList, by decide, by decide⟩, by decide⟩, by decide,
    ⟨[], "p".toList, [], by decide, by decide, ?_, by decide, by decide⟩,
    ⟨by decide, ⟨[], "b".toList, [], by decide, by decide, ?_, by decide, by decide, by decide,
      .inl rfl, by decide⟩, by decide,
      ⟨[], "B".toList, " ".toList, by decide, by decide, ?_, by decide, by decide⟩,
      ⟨by decide, trivial⟩, by decide, trivial⟩, by decide, trivial⟩ <;>
  exact ⟨by decide, by decide⟩

/-- A declaration before it. -/
example : OpenText "!DOCTYPE html".toList ⟨"!doctype".toList, "html".toList⟩ :=
  ⟨[], "!DOCTYPE".toList, " ".toList, by decide, by decide, ⟨by decide, by decide⟩, by decide,
    by decide, by decide, .inr ⟨by decide, 'h', "tml".toList, by decide, by decide⟩, by decide⟩

example : String.ofList page.text = "\n<P class=\"a>b\">x<b>y</B >z</p>>" ∧
    edit id (String.ofList page.text) = some "\n<p class=\"a>b\">x<b>y</b>z</p>>" ∧
    edit List.reverse (String.ofList page.text) = some "><p class=\"a>b\">z<b>y</b>x</p>\n" ∧
    view "><p class=\"a>b\">z<b>y</b>x</p>\n" =
      some [('>', []), ('z', ["p"]), ('y', ["p", "b"]), ('x', ["p"]), ('\n', [])] := by
  decide +kernel

/-- A document that is not well nested and fulfils the hypotheses of `C44_any_document_partial`:
unclosed list items, a closing tag too many, a failed tag. -/
example : view "<ul><li>a<li>b</ul>c</i>< >d" =
      some [('a', ["ul", "li"]), ('b', ["ul", "li", "li"]), ('c', []), (' ', []), ('>', []), ('d', [])] ∧
    edit id "<ul><li>a<li>b</ul>c</i>< >d" = some "<ul><li>a<li>b</li></li></ul>c >d" := by
  decide +kernel

end Verif.Props
