/-!
# The formatted text of example/html.cpp

Flyweights are represented by their values here: comparing flyweights is
comparing values (C01), and this example only compares, reads and copies them.
`none` is undefined behaviour.
-/

set_option autoImplicit false

namespace Verif.Html

/-- Strings.  (No code of its own: `std::string`.) -/
abbrev Str := List Char

/-! ## The code -/

/-- `html_tag_data`, /repo/example/html.cpp:35-39. -/
structure Tag where
  name : Str
  properties : Str
deriving DecidableEq

/-- `html_context_data`: the tags enclosing a character, outermost first,
/repo/example/html.cpp:130-135. -/
abbrev Ctx := List Tag

/-- `character_data`: a code and its context, /repo/example/html.cpp:140-148. -/
abbrev Chr := Char × Ctx

/-- The characters of `"\t\n\r "`, /repo/example/html.cpp:97-103. -/
def ws (c : Char) : Bool := c == '\t' || c == '\n' || c == '\r' || c == ' '

/-- `s.find_first_of` and `find_first_not_of` (C++ standard library): first
position from `pos` on that satisfies `p`, `none` being `npos`.  Used in
/repo/example/html.cpp:96-103. -/
def findFrom (p : Char → Bool) (s : Str) (pos : Nat) : Option Nat :=
  ((s.drop pos).findIdx? p).map (· + pos)

/-- `s.substr(pos,stop-pos)` (C++ standard library), for `pos` at most the size;
if `stop` is `npos`, all the rest.  Used in /repo/example/html.cpp:112, 117. -/
def substr (s : Str) (pos : Nat) : Option Nat → Str
  | some stop => (s.drop pos).take (stop - pos)
  | none => s.drop pos

/-- `std::tolower` in the "C" locale, /repo/example/html.cpp:113-115; undefined for
characters of negative value, i.e. (with a signed `char`) those beyond ASCII. -/
def lower (c : Char) : Option Char :=
  if c.toNat ≥ 128 then none
  else if 'A'.toNat ≤ c.toNat ∧ c.toNat ≤ 'Z'.toNat then some (Char.ofNat (c.toNat + 32))
  else some c

/-- `std::transform` with `std::tolower`, /repo/example/html.cpp:113-115. -/
def lowerAll : Str → Option Str
  | [] => some []
  | c :: cs => (lower c).bind fun c => (lowerAll cs).map (c :: ·)

/-- Result of `parse_tag` (`ub`: undefined behaviour), /repo/example/html.cpp:74-84.
The tags are followed by what remains of the input. -/
inductive TagRes where
  | ub
  | failure
  | opening (t : Tag) (rest : Str)
  | closing (t : Tag) (rest : Str)

/-- The loop of `parse_tag` up to the `'>'`, /repo/example/html.cpp:90-94, 122-127:
the contents of `buf` and what follows the `'>'`, or the end without one. -/
def upTo (in_quote : Bool) (buf : Str) : Str → Option (Str × Str)
  | [] => none
  | ch :: it =>
    if ch = '>' ∧ in_quote = false then some (buf, it)
    else upTo (if ch = '"' then !in_quote else in_quote) (buf ++ [ch]) it

/-- What `parse_tag` does when it finds the `'>'`, /repo/example/html.cpp:95-120. -/
def decode (buf rest : Str) : TagRes :=
  let bname := findFrom (fun c => !ws c) buf 0
  let ename := bname.bind fun b => findFrom ws buf b
  let bprop := ename.bind fun e => findFrom (fun c => !ws c) buf e
  if bname = ename then .failure
  else
    match bname with
    | none => .failure
    | some b =>
      let closes := buf[b]? = some '/'
      let b := if closes then b + 1 else b
      match lowerAll (substr buf b ename) with
      | none => .ub
      | some name =>
        let properties := match bprop with
          | none => []
          | some p => buf.drop p
        if closes then .closing ⟨name, properties⟩ rest else .opening ⟨name, properties⟩ rest

/-- `parse_tag`, /repo/example/html.cpp:86-128. -/
def parseTag (first : Str) : TagRes :=
  match upTo false [] first with
  | none => .failure
  | some (buf, rest) => decode buf rest

/-- The tags left by a closing tag: up to the innermost of that name, exclusively, if
there is one, /repo/example/html.cpp:193-199. -/
def pop (name : Str) (ctx : Ctx) : Ctx :=
  match ctx.reverse.dropWhile fun t => t.name ≠ name with
  | [] => ctx
  | _ :: outer => outer.reverse

/-- `scan_html`, /repo/example/html.cpp:176-205, from some point of its loop on.  If the tag
is not accepted, its `'<'` has been passed and the next character is taken, whatever it
is: undefined at the end of the input.  The first argument bounds the number of
steps, running out of it is undefined. -/
def scan : Nat → Ctx → Str → Option (List Chr)
  | 0, _, _ => none
  | _ + 1, _, [] => some []
  | fuel + 1, ctx, c :: first =>
    if c = '<' then
      match parseTag first with
      | .ub => none
      | .opening t rest => scan fuel (ctx ++ [t]) rest
      | .closing t rest => scan fuel (pop t.name ctx) rest
      | .failure =>
        match first with
        | [] => none
        | d :: rest => (scan fuel ctx rest).map ((d, ctx) :: ·)
    else (scan fuel ctx first).map ((c, ctx) :: ·)

/-- `scan_html` on a whole document, /repo/example/html.cpp:176-205. -/
def scanHtml (doc : Str) : Option (List Chr) := scan (doc.length + 1) [] doc

/-- `print_opening_tag`, /repo/example/html.cpp:209-214. -/
def openTag (x : Tag) : Str :=
  '<' :: x.name ++ (if x.properties ≠ [] then ' ' :: x.properties else []) ++ ['>']

/-- `print_closing_tag`, /repo/example/html.cpp:216-221. -/
def closeTag (x : Tag) : Str :=
  if x.name.head? ≠ some '!' then '<' :: '/' :: x.name ++ ['>'] else []

/-- What remains of two contexts after their common part, /repo/example/html.cpp:243. -/
def differ : Ctx → Ctx → Ctx × Ctx
  | x :: xs, y :: ys => if x = y then differ xs ys else (x :: xs, y :: ys)
  | xs, ys => (xs, ys)

/-- `change_context`, /repo/example/html.cpp:231-248. -/
def changeContext (frm to : Ctx) : Str :=
  (differ frm to).1.reverse.flatMap closeTag ++ (differ frm to).2.flatMap openTag

/-- `produce_html` from some point of its loop on, /repo/example/html.cpp:255-267. -/
def produce (context : Ctx) : List Chr → Str
  | [] => changeContext context []
  | (code, ctx) :: cs =>
    if ctx ≠ context then changeContext context ctx ++ code :: produce ctx cs
    else code :: produce context cs

/-- `produce_html`, /repo/example/html.cpp:255-267. -/
def produceHtml (cs : List Chr) : Str := produce [] cs

/-! ## Tags as text -/

/-- Quotes: after `s`, starting inside quotes or not, is one inside quotes; `none` if there
is a `'>'` outside of quotes in `s`.  (No code of its own: used in statements and proofs.) -/
def walk (q : Bool) : Str → Option Bool
  | [] => some q
  | c :: cs => if c = '>' ∧ q = false then none else walk (if c = '"' then !q else q) cs

theorem walk_append : ∀ (q : Bool) (a b : Str), walk q (a ++ b) = (walk q a).bind (walk · b)
  | _, [], _ => rfl
  | q, c :: a, b => by
    simp only [List.cons_append, walk]
    split
    · rfl
    · exact walk_append _ a b

theorem walk_ws : ∀ (q : Bool) (a : Str), (∀ c ∈ a, ws c = true) → walk q a = some q
  | _, [], _ => rfl
  | q, c :: a, h => by
    have hc := h c (by simp)
    have h1 : c ≠ '>' := by rintro rfl; simp [ws] at hc
    have h2 : c ≠ '"' := by rintro rfl; simp [ws] at hc
    simp only [walk, h1, h2, false_and, if_false]
    exact walk_ws q a fun x hx => h x (by simp [hx])

theorem upTo_ok : ∀ (q : Bool) (s buf rest : Str), walk q s = some false →
    upTo q buf (s ++ '>' :: rest) = some (buf ++ s, rest)
  | q, [], buf, rest, h => by
    simp only [walk, Option.some.injEq] at h
    simp [upTo, h]
  | q, c :: s, buf, rest, h => by
    simp only [walk] at h
    split at h
    · cases h
    · rename_i hc
      rw [List.cons_append, upTo, if_neg hc, upTo_ok _ s _ rest h]
      simp

theorem upTo_some : ∀ (q : Bool) (txt buf b rest : Str), upTo q buf txt = some (b, rest) →
    ∃ s, b = buf ++ s ∧ txt = s ++ '>' :: rest ∧ walk q s = some false
  | q, [], buf, b, rest, h => by cases h
  | q, c :: txt, buf, b, rest, h => by
    unfold upTo at h
    split at h
    · rename_i hc
      cases h
      exact ⟨[], by simp, by simp [hc.1], by simp [walk, hc.2]⟩
    · rename_i hc
      obtain ⟨s, h1, h2, h3⟩ := upTo_some _ txt _ b rest h
      refine ⟨c :: s, by simp [h1], by simp [h2], ?_⟩
      rw [walk, if_neg hc]
      exact h3

theorem findFrom_split (p : Char → Bool) (a : Str) (c : Char) (b : Str) (n : Nat)
    (hn : n ≤ a.length) (ha : ∀ x ∈ a.drop n, p x = false) (hc : p c = true) :
    findFrom p (a ++ c :: b) n = some a.length := by
  unfold findFrom
  rw [List.drop_append_of_le_length hn]
  have : ((a.drop n) ++ c :: b).findIdx? p = some (a.drop n).length := by
    rw [List.findIdx?_append, List.findIdx?_eq_none_iff.2 ha]
    simp [List.findIdx?_cons, hc]
  rw [this]
  simp
  omega

theorem findFrom_none (p : Char → Bool) (a : Str) (n : Nat) (ha : ∀ x ∈ a.drop n, p x = false) :
    findFrom p a n = none := by
  unfold findFrom
  rw [List.findIdx?_eq_none_iff.2 ha]
  rfl

/-- A string splits into leading characters satisfying `p` and the rest. -/
theorem split_while (p : Char → Bool) : ∀ s : Str, ∃ a b, s = a ++ b ∧ (∀ c ∈ a, p c = true) ∧
    (b = [] ∨ ∃ c t, b = c :: t ∧ p c = false)
  | [] => ⟨[], [], rfl, by simp, .inl rfl⟩
  | c :: s => by
    by_cases hc : p c = true
    · obtain ⟨a, b, h1, h2, h3⟩ := split_while p s
      refine ⟨c :: a, b, by simp [h1], ?_, h3⟩
      intro x hx
      rcases List.mem_cons.1 hx with rfl | hx
      · exact hc
      · exact h2 x hx
    · exact ⟨[], c :: s, rfl, by simp, .inr ⟨c, s, rfl, by simpa using hc⟩⟩

/-- `decode` on blanks: a null name. -/
theorem decode_blank {buf rest : Str} (h : ∀ c ∈ buf, ws c = true) :
    decode buf rest = .failure := by
  have : findFrom (fun c => !ws c) buf 0 = none := findFrom_none _ _ _ (by
    intro x hx; simp at hx; simp [h x hx])
  simp [decode, this]

/-- `decode` on a name (possibly after a slash) and properties. -/
theorem decode_tag {w1 n w2 pr rest : Str} (h1 : ∀ c ∈ w1, ws c = true)
    (hn : ∀ c ∈ n, ws c = false) (hn0 : n ≠ []) (h2 : ∀ c ∈ w2, ws c = true)
    (hp : pr = [] ∨ (w2 ≠ [] ∧ ∃ c t, pr = c :: t ∧ ws c = false)) :
    decode (w1 ++ (n ++ (w2 ++ pr))) rest =
      match lowerAll (if n.head? = some '/' then n.tail else n) with
      | none => .ub
      | some name => if n.head? = some '/' then .closing ⟨name, pr⟩ rest
          else .opening ⟨name, pr⟩ rest := by
  obtain ⟨c, n', rfl⟩ : ∃ c n', n = c :: n' := by
    cases n with
    | nil => exact absurd rfl hn0
    | cons c n' => exact ⟨c, n', rfl⟩
  have hb : findFrom (fun c => !ws c) (w1 ++ (c :: n' ++ (w2 ++ pr))) 0 = some w1.length := by
    rw [List.cons_append]
    exact findFrom_split _ w1 c _ 0 (Nat.zero_le _) (by intro x hx; simp at hx; simp [h1 x hx])
      (by simp [hn c])
  have hsl : (w1 ++ (c :: n' ++ (w2 ++ pr)))[w1.length]? = some c := by simp
  have hcl : ((w1 ++ (c :: n' ++ (w2 ++ pr)))[w1.length]? = some '/') ↔
      ((c :: n').head? = some '/') := by rw [hsl]; simp
  have hdrop : (w1 ++ (c :: n' ++ (w2 ++ pr))).drop w1.length = c :: n' ++ (w2 ++ pr) := by simp
  have hdrop1 : (w1 ++ (c :: n' ++ (w2 ++ pr))).drop (w1.length + 1) = n' ++ (w2 ++ pr) := by
    rw [← List.drop_drop, hdrop]; rfl
  have hnows : ∀ x ∈ n', ws x = false := fun x hx => hn x (by simp [hx])
  by_cases hw2 : w2 = []
  · have hpr : pr = [] := by
      rcases hp with h | ⟨h, _⟩
      · exact h
      · exact absurd hw2 h
    subst hw2 hpr
    have he : findFrom ws (w1 ++ (c :: n' ++ ([] ++ []))) w1.length = none := by
      refine findFrom_none _ _ _ ?_
      rw [hdrop]
      intro x hx
      simp only [List.append_nil] at hx
      exact hn x hx
    unfold decode
    simp only [hb, Option.bind_some, he, Option.bind_none, substr]
    by_cases hs : c = '/'
    · subst hs
      rw [if_neg (by simp)]
      simp only [hsl, if_true, hdrop1, List.head?_cons, List.tail_cons]
      simp only [List.append_nil]
    · have hs' : ¬ (some c = some '/') := by simpa using hs
      rw [if_neg (by simp)]
      simp only [hsl, hs', if_false, hdrop, List.head?_cons]
      simp only [List.append_nil]
  · obtain ⟨w, w2', rfl⟩ : ∃ w w2', w2 = w :: w2' := by
      cases w2 with
      | nil => exact absurd rfl hw2
      | cons w w2' => exact ⟨w, w2', rfl⟩
    have he : findFrom ws (w1 ++ (c :: n' ++ (w :: w2' ++ pr))) w1.length =
        some (w1 ++ (c :: n')).length := by
      have := findFrom_split ws (w1 ++ (c :: n')) w (w2' ++ pr) w1.length (by simp) (by
        intro x hx
        simp only [List.drop_left] at hx
        exact hn x hx) (h2 w (by simp))
      simpa using this
    have hbp : (findFrom (fun c => !ws c) (w1 ++ (c :: n' ++ (w :: w2' ++ pr)))
        (w1 ++ (c :: n')).length) = if pr = [] then none else
          some (w1 ++ (c :: n') ++ (w :: w2')).length := by
      rcases hp with rfl | ⟨_, d, t, rfl, hd⟩
      · rw [if_pos rfl]
        refine findFrom_none _ _ _ ?_
        intro x hx
        rw [← List.append_assoc, List.drop_left] at hx
        simp only [List.append_nil] at hx
        simp [h2 x hx]
      · rw [if_neg (by simp)]
        have := findFrom_split (fun c => !ws c) (w1 ++ (c :: n') ++ (w :: w2')) d t
          (w1 ++ (c :: n')).length (by simp) (by
            intro x hx
            rw [List.drop_left] at hx
            simp [h2 x hx]) (by simp [hd])
        simpa using this
    have hpdrop : ∀ k, k = (w1 ++ (c :: n') ++ (w :: w2')).length →
        (w1 ++ (c :: n' ++ (w :: w2' ++ pr))).drop k = pr := by
      rintro k rfl
      rw [show w1 ++ (c :: n' ++ (w :: w2' ++ pr)) = w1 ++ (c :: n') ++ (w :: w2') ++ pr by simp,
        List.drop_left]
    unfold decode
    simp only [hb, Option.bind_some, he, hbp, substr]
    have hne : ¬ (some w1.length = some (w1 ++ (c :: n')).length) := by simp
    have hprop : (match (if pr = [] then none else
          some (w1 ++ (c :: n') ++ (w :: w2')).length : Option Nat) with
        | none => []
        | some p => (w1 ++ (c :: n' ++ (w :: w2' ++ pr))).drop p) = pr := by
      by_cases hpr : pr = []
      · simp [hpr]
      · simp only [hpr, if_false]
        exact hpdrop _ rfl
    rw [if_neg hne]
    by_cases hs : c = '/'
    · subst hs
      simp only [hsl, if_true, hdrop1, List.head?_cons, List.tail_cons, hprop]
      have : (n' ++ (w :: w2' ++ pr)).take ((w1 ++ ('/' :: n')).length - (w1.length + 1)) = n' := by
        rw [show (w1 ++ ('/' :: n')).length - (w1.length + 1) = n'.length by simp; omega,
          List.take_left]
      rw [this]
    · have hs' : ¬ (some c = some '/') := by simpa using hs
      simp only [hsl, hs', if_false, hdrop, List.head?_cons, hprop]
      have : (c :: n' ++ (w :: w2' ++ pr)).take ((w1 ++ (c :: n')).length - w1.length) =
          c :: n' := by
        rw [show (w1 ++ (c :: n')).length - w1.length = (c :: n').length by simp,
          List.take_left]
      rw [this]

/-! ## Lower case -/

theorem lower_facts {c d : Char} (h : lower c = some d) :
    c.toNat < 128 ∧ lower d = some d ∧ ws d = ws c ∧ (d = '>' ↔ c = '>') ∧ (d = '"' ↔ c = '"') ∧
      (d = '/' ↔ c = '/') := by
  have hlt : c.toNat < 128 := by
    unfold lower at h
    split at h
    · cases h
    · omega
  have hall : ∀ n : Fin 128, ∀ d, lower (Char.ofNat n) = some d →
      lower d = some d ∧ ws d = ws (Char.ofNat n) ∧ (d = '>' ↔ Char.ofNat n = '>') ∧
        (d = '"' ↔ Char.ofNat n = '"') ∧ (d = '/' ↔ Char.ofNat n = '/') := by
    have hd : ∀ n : Fin 128, (lower (Char.ofNat n)).all (fun d =>
        lower d == some d && ws d == ws (Char.ofNat n) && ((d == '>') == (Char.ofNat n == '>')) &&
        ((d == '"') == (Char.ofNat n == '"')) && ((d == '/') == (Char.ofNat n == '/'))) = true := by
      decide +kernel
    intro n d hn
    have := hd n
    rw [hn] at this
    simp only [Option.all_some, Bool.and_eq_true, beq_iff_eq] at this
    obtain ⟨⟨⟨⟨h1, h2⟩, h3⟩, h4⟩, h5⟩ := this
    refine ⟨h1, h2, ?_, ?_, ?_⟩
    · rw [← beq_iff_eq (a := d), h3, beq_iff_eq]
    · rw [← beq_iff_eq (a := d), h4, beq_iff_eq]
    · rw [← beq_iff_eq (a := d), h5, beq_iff_eq]
  have hc : Char.ofNat c.toNat = c := Char.ofNat_toNat c
  have := hall ⟨c.toNat, hlt⟩ d (by simp only [hc]; exact h)
  simp only [hc] at this
  exact ⟨hlt, this⟩

theorem lowerAll_facts : ∀ {s t : Str}, lowerAll s = some t →
    lowerAll t = some t ∧ t.length = s.length ∧ (∀ q, walk q t = walk q s) ∧
      ((∀ c ∈ s, ws c = false) → ∀ c ∈ t, ws c = false) ∧
      (t.head? = some '/' ↔ s.head? = some '/')
  | [], t, h => by
    simp only [lowerAll, Option.some.injEq] at h
    subst h
    exact ⟨rfl, rfl, fun _ => rfl, fun h => h, Iff.rfl⟩
  | c :: s, t, h => by
    simp only [lowerAll] at h
    cases hc : lower c with
    | none => rw [hc] at h; cases h
    | some d =>
      rw [hc] at h
      cases hs : lowerAll s with
      | none => rw [hs] at h; cases h
      | some u =>
        rw [hs] at h
        simp only [Option.bind_some, Option.map_some, Option.some.injEq] at h
        subst h
        obtain ⟨_, f1, f2, f3, f4, f5⟩ := lower_facts hc
        obtain ⟨g1, g2, g3, g4, _⟩ := lowerAll_facts hs
        refine ⟨?_, by simp [g2], ?_, ?_, by simp [f5]⟩
        · simp [lowerAll, f1, g1]
        · intro q
          simp only [walk, f3, f4, g3]
        · intro h x hx
          rcases List.mem_cons.1 hx with rfl | hx
          · rw [f2]; exact h c (by simp)
          · exact g4 (fun y hy => h y (by simp [hy])) x hx

/-! ## Tags that are read can be printed and read again -/

/-- Facts about tags in contexts.  (No code of its own: used in statements and proofs.) -/
structure Readable (t : Tag) : Prop where
  name : t.name ≠ []
  nows : ∀ c ∈ t.name, ws c = false
  slash : t.name.head? ≠ some '/'
  lower : lowerAll t.name = some t.name
  prop : t.properties = [] ∨ ∃ c r, t.properties = c :: r ∧ ws c = false
  quotes : walk false (t.name ++ (if t.properties ≠ [] then ' ' :: t.properties else [])) = some false

/-- Every input either has a blank name or is a tag. -/
theorem buf_split (buf : Str) : (∀ c ∈ buf, ws c = true) ∨
    ∃ w1 n w2 pr, buf = w1 ++ (n ++ (w2 ++ pr)) ∧ (∀ c ∈ w1, ws c = true) ∧
      (∀ c ∈ n, ws c = false) ∧ n ≠ [] ∧ (∀ c ∈ w2, ws c = true) ∧
      (pr = [] ∨ (w2 ≠ [] ∧ ∃ c t, pr = c :: t ∧ ws c = false)) := by
  obtain ⟨w1, b1, e1, h1, g1⟩ := split_while ws buf
  rcases g1 with rfl | ⟨c, t, rfl, hc⟩
  · left; rw [e1, List.append_nil]; exact h1
  · right
    obtain ⟨n, b2, e2, h2, g2⟩ := split_while (fun c => !ws c) (c :: t)
    have hn0 : n ≠ [] := by
      rintro rfl
      rw [List.nil_append] at e2
      rcases g2 with rfl | ⟨d, u, rfl, hd⟩
      · cases e2
      · cases e2; simp [hc] at hd
    have hn : ∀ c ∈ n, ws c = false := fun x hx => by simpa using h2 x hx
    rcases g2 with rfl | ⟨d, u, rfl, hd⟩
    · exact ⟨w1, n, [], [], by rw [e1, e2]; simp, h1, hn, hn0, by simp, .inl rfl⟩
    · obtain ⟨w2, b3, e3, h3, g3⟩ := split_while ws (d :: u)
      have hw2 : w2 ≠ [] := by
        rintro rfl
        rw [List.nil_append] at e3
        rcases g3 with rfl | ⟨x, y, rfl, hx⟩
        · cases e3
        · cases e3; simp [hx] at hd
      rcases g3 with rfl | ⟨x, y, rfl, hx⟩
      · exact ⟨w1, n, w2, [], by rw [e1, e2, e3], h1, hn, hn0, h3, .inl rfl⟩
      · exact ⟨w1, n, w2, x :: y, by rw [e1, e2, e3], h1, hn, hn0, h3, .inr ⟨hw2, x, y, rfl, hx⟩⟩

theorem parseTag_opening {txt rest : Str} {t : Tag} (h : parseTag txt = .opening t rest) :
    Readable t ∧ rest.length < txt.length := by
  unfold parseTag at h
  cases hu : upTo false [] txt with
  | none => rw [hu] at h; cases h
  | some p =>
    obtain ⟨buf, r⟩ := p
    rw [hu] at h
    simp only at h
    obtain ⟨s, hs, htxt, hw⟩ := upTo_some _ _ _ _ _ hu
    rw [List.nil_append] at hs
    subst hs
    rcases buf_split buf with hb | ⟨w1, n, w2, pr, e, h1, hn, hn0, h2, hp⟩
    · rw [decode_blank hb] at h; cases h
    · subst e
      rw [decode_tag h1 hn hn0 h2 hp] at h
      by_cases hs : n.head? = some '/'
      · simp only [hs, if_true] at h
        split at h <;> cases h
      · simp only [hs, if_false] at h
        cases hl : lowerAll n with
        | none => rw [hl] at h; cases h
        | some name =>
          rw [hl] at h
          cases h
          obtain ⟨f1, f2, f3, f4, f5⟩ := lowerAll_facts hl
          refine ⟨{
            name := ?_
            nows := f4 hn
            slash := fun hh => hs (f5.1 hh)
            lower := f1
            prop := ?_
            quotes := ?_ }, ?_⟩
          · intro hh
            simp only at hh
            rw [hh] at f2
            cases n with
            | nil => exact hn0 rfl
            | cons c n => cases f2
          · rcases hp with rfl | ⟨_, h⟩
            · exact .inl rfl
            · exact .inr h
          · simp only
            rw [walk_append, walk_ws _ _ h1, Option.bind_some, walk_append] at hw
            rw [walk_append, f3]
            cases hq : walk false n with
            | none => rw [hq] at hw; cases hw
            | some q =>
              rw [hq] at hw
              simp only [Option.bind_some] at hw ⊢
              rw [walk_append, walk_ws _ _ h2, Option.bind_some] at hw
              by_cases hpr : pr = []
              · subst hpr
                simpa using hw
              · rw [if_pos hpr]
                rw [show (' ' :: pr) = [' '] ++ pr from rfl, walk_append, walk_ws _ _ (by simp [ws])]
                exact hw
          · rw [htxt]; simp; omega

theorem parseTag_closing {txt rest : Str} {t : Tag} (h : parseTag txt = .closing t rest) :
    rest.length < txt.length := by
  unfold parseTag at h
  cases hu : upTo false [] txt with
  | none => rw [hu] at h; cases h
  | some p =>
    obtain ⟨buf, r⟩ := p
    rw [hu] at h
    simp only at h
    obtain ⟨s, hs, htxt, hw⟩ := upTo_some _ _ _ _ _ hu
    rw [List.nil_append] at hs
    subst hs
    rcases buf_split buf with hb | ⟨w1, n, w2, pr, e, h1, hn, hn0, h2, hp⟩
    · rw [decode_blank hb] at h; cases h
    · subst e
      rw [decode_tag h1 hn hn0 h2 hp] at h
      split at h
      · cases h
      · split at h
        · cases h; rw [htxt]; simp; omega
        · cases h

/-- A printed opening tag is read as that tag. -/
theorem parseTag_open {t : Tag} (h : Readable t) (rest : Str) :
    parseTag ((openTag t).tail ++ rest) = .opening t rest := by
  have e : (openTag t).tail ++ rest =
      (t.name ++ (if t.properties ≠ [] then ' ' :: t.properties else [])) ++ '>' :: rest := by
    simp [openTag]
  rw [e]
  unfold parseTag
  rw [upTo_ok _ _ _ _ h.quotes, List.nil_append]
  simp only
  by_cases hp : t.properties = []
  · rw [if_neg (by simpa using hp)]
    have := decode_tag (w1 := []) (n := t.name) (w2 := []) (pr := []) (rest := rest) (by simp) h.nows
      h.name (by simp) (.inl rfl)
    simp only [List.nil_append, List.append_nil, h.slash, if_false, h.lower] at this
    rw [List.append_nil, this]
    cases t
    simp at hp
    rw [hp]
  · rw [if_pos hp]
    have := decode_tag (w1 := []) (n := t.name) (w2 := [' ']) (pr := t.properties) (rest := rest)
      (by simp) h.nows h.name (by simp [ws]) (.inr ⟨by simp, by
        rcases h.prop with h | h
        · exact absurd h hp
        · exact h⟩)
    simp only [List.nil_append, h.slash, if_false, h.lower] at this
    exact this

/-- A printed closing tag is read as one of that name, if quotes are closed in it. -/
theorem parseTag_close {t : Tag} (h : Readable t) (hq : walk false t.name = some false)
    (rest : Str) : parseTag ('/' :: t.name ++ '>' :: rest) = .closing ⟨t.name, []⟩ rest := by
  unfold parseTag
  have hw : walk false ('/' :: t.name) = some false := by simp [walk, hq]
  rw [upTo_ok _ _ _ _ hw, List.nil_append]
  simp only
  have := decode_tag (w1 := []) (n := '/' :: t.name) (w2 := []) (pr := []) (rest := rest) (by simp)
    (by intro c hc
        rcases List.mem_cons.1 hc with rfl | hc
        · rfl
        · exact h.nows c hc) (by simp) (by simp) (.inl rfl)
  simpa [h.lower] using this

/-! ## Reading what has been produced -/

theorem scan_cons (fuel : Nat) (ctx : Ctx) (c : Char) (first : Str) :
    scan (fuel + 1) ctx (c :: first) =
      if c = '<' then
        match parseTag first with
        | .ub => none
        | .opening t rest => scan fuel (ctx ++ [t]) rest
        | .closing t rest => scan fuel (pop t.name ctx) rest
        | .failure =>
          match first with
          | [] => none
          | d :: rest => (scan fuel ctx rest).map ((d, ctx) :: ·)
      else (scan fuel ctx first).map ((c, ctx) :: ·) := rfl

/-- Enough steps. -/
theorem scan_more : ∀ (fuel : Nat) (ctx : Ctx) (txt : Str) (cs : List Chr),
    scan fuel ctx txt = some cs → scan (fuel + 1) ctx txt = some cs := by
  intro fuel
  induction fuel with
  | zero => intro ctx txt cs h; cases h
  | succ fuel ih =>
    intro ctx txt cs h
    cases txt with
    | nil => exact h
    | cons c txt =>
      rw [scan_cons] at h ⊢
      by_cases hc : c = '<'
      · rw [if_pos hc] at h ⊢
        cases hp : parseTag txt with
        | ub => rw [hp] at h; cases h
        | opening t rest => rw [hp] at h; exact ih _ _ _ h
        | closing t rest => rw [hp] at h; exact ih _ _ _ h
        | failure =>
          rw [hp] at h
          cases txt with
          | nil => cases h
          | cons d rest =>
            simp only at h ⊢
            cases hs : scan fuel ctx rest with
            | none => rw [hs] at h; cases h
            | some l => rw [hs] at h; rw [ih _ _ _ hs]; exact h
      · rw [if_neg hc] at h ⊢
        cases hs : scan fuel ctx txt with
        | none => rw [hs] at h; cases h
        | some l => rw [hs] at h; rw [ih _ _ _ hs]; exact h

theorem scan_mono {fuel fuel' : Nat} {ctx : Ctx} {txt : Str} {cs : List Chr} (hle : fuel ≤ fuel')
    (h : scan fuel ctx txt = some cs) : scan fuel' ctx txt = some cs := by
  induction hle with
  | refl => exact h
  | step _ ih => exact scan_more _ _ _ _ ih

/-- With the text's length as bound, success with any bound is success. -/
theorem scan_enough : ∀ (fuel : Nat) (ctx : Ctx) (txt : Str) (cs : List Chr),
    scan fuel ctx txt = some cs → scan (txt.length + 1) ctx txt = some cs := by
  intro fuel
  induction fuel with
  | zero => intro ctx txt cs h; cases h
  | succ fuel ih =>
    intro ctx txt cs h
    cases txt with
    | nil => exact h
    | cons c txt =>
      rw [scan_cons] at h ⊢
      by_cases hc : c = '<'
      · rw [if_pos hc] at h ⊢
        cases hp : parseTag txt with
        | ub => rw [hp] at h; cases h
        | opening t rest =>
          rw [hp] at h
          have := (parseTag_opening hp).2
          exact scan_mono (by simp; omega) (ih _ _ _ h)
        | closing t rest =>
          rw [hp] at h
          have := parseTag_closing hp
          exact scan_mono (by simp; omega) (ih _ _ _ h)
        | failure =>
          rw [hp] at h
          cases txt with
          | nil => cases h
          | cons d rest =>
            simp only at h ⊢
            cases hs : scan fuel ctx rest with
            | none => rw [hs] at h; cases h
            | some l => rw [hs] at h; rw [scan_mono (by simp) (ih _ _ _ hs)]; exact h
      · rw [if_neg hc] at h ⊢
        cases hs : scan fuel ctx txt with
        | none => rw [hs] at h; cases h
        | some l => rw [hs] at h; rw [scan_mono (by simp) (ih _ _ _ hs)]; exact h

/-- Contexts of scanned characters consist of readable tags. -/
theorem scan_readable : ∀ (fuel : Nat) (ctx : Ctx) (txt : Str) (cs : List Chr),
    (∀ t ∈ ctx, Readable t) → scan fuel ctx txt = some cs →
    ∀ c ∈ cs, ∀ t ∈ c.2, Readable t := by
  intro fuel
  induction fuel with
  | zero => intro ctx txt cs _ h; cases h
  | succ fuel ih =>
    intro ctx txt cs hctx h
    have hout : ∀ (d : Char) (rest : Str), (scan fuel ctx rest).map ((d, ctx) :: ·) = some cs →
        ∀ c ∈ cs, ∀ t ∈ c.2, Readable t := by
      intro d rest h
      cases hs : scan fuel ctx rest with
      | none => rw [hs] at h; cases h
      | some l =>
        rw [hs] at h
        simp only [Option.map_some, Option.some.injEq] at h
        subst h
        intro c hc
        rcases List.mem_cons.1 hc with rfl | hc
        · exact hctx
        · exact ih _ _ _ hctx hs c hc
    cases txt with
    | nil => cases h; intro c hc; cases hc
    | cons c txt =>
      rw [scan_cons] at h
      by_cases hc : c = '<'
      · rw [if_pos hc] at h
        cases hp : parseTag txt with
        | ub => rw [hp] at h; cases h
        | opening t rest =>
          rw [hp] at h
          refine ih _ _ _ ?_ h
          intro x hx
          rcases List.mem_append.1 hx with hx | hx
          · exact hctx x hx
          · simp only [List.mem_singleton] at hx
            subst hx
            exact (parseTag_opening hp).1
        | closing t rest =>
          rw [hp] at h
          refine ih _ _ _ ?_ h
          intro x hx
          unfold pop at hx
          split at hx
          · exact hctx x hx
          · rename_i y outer he
            apply hctx x
            have hsub : (y :: outer).Sublist ctx.reverse := he ▸ List.dropWhile_sublist _
            have : x ∈ ctx.reverse := hsub.subset (by simp at hx; simp [hx])
            simpa using this
        | failure =>
          rw [hp] at h
          cases txt with
          | nil => cases h
          | cons d rest => exact hout d rest h
      · rw [if_neg hc] at h
        exact hout c txt h

/-- Opening tags enlarge the context. -/
theorem scan_opens : ∀ (ts : List Tag) (ctx : Ctx) (rest : Str) (cs : List Chr),
    (∀ t ∈ ts, Readable t) → (∃ fuel, scan fuel (ctx ++ ts) rest = some cs) →
    ∃ fuel, scan fuel ctx (ts.flatMap openTag ++ rest) = some cs
  | [], ctx, rest, cs, _, h => by simpa using h
  | t :: ts, ctx, rest, cs, hr, h => by
    obtain ⟨fuel, hf⟩ := scan_opens ts (ctx ++ [t]) rest cs (fun x hx => hr x (by simp [hx]))
      (by simpa using h)
    refine ⟨fuel + 1, ?_⟩
    have e : (t :: ts).flatMap openTag ++ rest =
        '<' :: ((openTag t).tail ++ (ts.flatMap openTag ++ rest)) := by
      simp [openTag]
    rw [e, scan_cons, if_pos rfl, parseTag_open (hr t (by simp))]
    exact hf

theorem pop_last (ctx : Ctx) (t : Tag) : pop t.name (ctx ++ [t]) = ctx := by
  unfold pop
  simp

/-- Closing tags reduce the context. -/
theorem scan_closes : ∀ (ts : List Tag) (ctx : Ctx) (rest : Str) (cs : List Chr),
    (∀ t ∈ ts, Readable t ∧ walk false t.name = some false ∧ t.name.head? ≠ some '!') →
    (∃ fuel, scan fuel ctx rest = some cs) →
    ∃ fuel, scan fuel (ctx ++ ts.reverse) (ts.flatMap closeTag ++ rest) = some cs
  | [], ctx, rest, cs, _, h => by simpa using h
  | t :: ts, ctx, rest, cs, hr, h => by
    obtain ⟨fuel, hf⟩ := scan_closes ts ctx rest cs (fun x hx => hr x (by simp [hx])) h
    obtain ⟨h1, h2, h3⟩ := hr t (by simp)
    refine ⟨fuel + 1, ?_⟩
    have e : (t :: ts).flatMap closeTag ++ rest =
        '<' :: ('/' :: t.name ++ '>' :: (ts.flatMap closeTag ++ rest)) := by
      simp [closeTag, h3]
    rw [e, scan_cons, if_pos rfl, parseTag_close h1 h2]
    simp only
    rw [List.reverse_cons, ← List.append_assoc, pop_last]
    exact hf

theorem differ_spec : ∀ (a b : Ctx), ∃ p, a = p ++ (differ a b).1 ∧ b = p ++ (differ a b).2
  | x :: xs, y :: ys => by
    unfold differ
    split
    · rename_i e
      subst e
      obtain ⟨p, h1, h2⟩ := differ_spec xs ys
      exact ⟨x :: p, by rw [List.cons_append, ← h1], by rw [List.cons_append, ← h2]⟩
    · exact ⟨[], rfl, rfl⟩
  | [], b => ⟨[], by cases b <;> rfl, by cases b <;> rfl⟩
  | x :: xs, [] => ⟨[], rfl, rfl⟩

/-- A tag that can be closed.  (No code of its own: used in statements and proofs.) -/
def Closable (t : Tag) : Prop :=
  Readable t ∧ walk false t.name = some false ∧ t.name.head? ≠ some '!'

theorem differ_prefix : ∀ (p a b : Ctx), differ (p ++ a) (p ++ b) = differ a b
  | [], _, _ => rfl
  | x :: p, a, b => by
    rw [List.cons_append, List.cons_append, differ, if_pos rfl]
    exact differ_prefix p a b

theorem differ_nil (a : Ctx) : differ a [] = (a, []) := by cases a <;> rfl

/-- Reading a change of context changes the context, in a common enclosing context. -/
theorem scan_change {p a b : Ctx} (ha : ∀ t ∈ a, Closable t) (hb : ∀ t ∈ b, Readable t) {rest : Str}
    {cs : List Chr} (h : ∃ fuel, scan fuel (p ++ b) rest = some cs) :
    ∃ fuel, scan fuel (p ++ a) (changeContext (p ++ a) (p ++ b) ++ rest) = some cs := by
  obtain ⟨q, e1, e2⟩ := differ_spec a b
  unfold changeContext
  rw [List.append_assoc, differ_prefix]
  have h2 := scan_opens (differ a b).2 (p ++ q) rest cs
    (fun t ht => hb t (by rw [e2]; exact List.mem_append_right _ ht))
    (by rw [List.append_assoc, ← e2]; exact h)
  have h3 := scan_closes (differ a b).1.reverse (p ++ q) _ cs
    (fun t ht => ha t (by rw [e1]; exact List.mem_append_right _ (by simpa using ht))) h2
  rw [List.reverse_reverse, List.append_assoc, ← e1] at h3
  exact h3

/-- A tag that may enclose everything: closable, or a declaration.  (No code of its own: used in
statements and proofs.) -/
def Outer (t : Tag) : Prop :=
  Readable t ∧ (walk false t.name = some false ∨ t.name.head? = some '!')

theorem Closable.outer {t : Tag} (h : Closable t) : Outer t := ⟨h.1, .inl h.2.1⟩

/-- Closing tags at the end yield no characters. -/
theorem scan_closes_end : ∀ (ts : List Tag) (ctx : Ctx), (∀ t ∈ ts, Outer t) →
    ∃ fuel, scan fuel ctx (ts.flatMap closeTag) = some []
  | [], _, _ => ⟨1, rfl⟩
  | t :: ts, ctx, h => by
    obtain ⟨h1, h2⟩ := h t (by simp)
    by_cases hd : t.name.head? = some '!'
    · obtain ⟨fuel, hf⟩ := scan_closes_end ts ctx fun x hx => h x (by simp [hx])
      exact ⟨fuel, by simpa [closeTag, hd] using hf⟩
    · obtain ⟨fuel, hf⟩ := scan_closes_end ts (pop t.name ctx) fun x hx => h x (by simp [hx])
      refine ⟨fuel + 1, ?_⟩
      have e : (t :: ts).flatMap closeTag = '<' :: ('/' :: t.name ++ '>' :: ts.flatMap closeTag) := by
        simp [closeTag, hd]
      rw [e, scan_cons, if_pos rfl, parseTag_close h1 (h2.resolve_right hd)]
      exact hf

/-- Reading what has been produced gives the characters back. -/
theorem scan_produce (p : Ctx) (hp : ∀ t ∈ p, Outer t) : ∀ (cs : List Chr) (a : Ctx),
    (∀ t ∈ a, Closable t) →
    (∀ c ∈ cs, c.1 ≠ '<' ∧ ∃ b, c.2 = p ++ b ∧ ∀ t ∈ b, Closable t) →
    ∃ fuel, scan fuel (p ++ a) (produce (p ++ a) cs) = some cs
  | [], a, ha, _ => by
    have := scan_closes_end (p ++ a).reverse (p ++ a) (by
      intro t ht
      rcases List.mem_append.1 (List.mem_reverse.1 ht) with h | h
      · exact hp t h
      · exact (ha t h).outer)
    simpa [produce, changeContext, differ_nil] using this
  | (c, k) :: cs, a, ha, h => by
    obtain ⟨hc, b, hk, hb⟩ := h (c, k) (by simp)
    simp only at hk
    subst hk
    have hchar : ∃ fuel, scan fuel (p ++ b) (c :: produce (p ++ b) cs) =
        some ((c, p ++ b) :: cs) := by
      obtain ⟨fuel, hf⟩ := scan_produce p hp cs b hb fun x hx => h x (by simp [hx])
      refine ⟨fuel + 1, ?_⟩
      simp only at hc
      rw [scan_cons, if_neg hc, hf]
      rfl
    unfold produce
    by_cases he : p ++ b = p ++ a
    · rw [if_neg (by simpa using he), ← he]
      exact hchar
    · rw [if_pos he]
      exact scan_change ha (fun t ht => (hb t ht).1) hchar

theorem scan_produceHtml (p : Ctx) (hp : ∀ t ∈ p, Outer t) (cs : List Chr)
    (h : ∀ c ∈ cs, c.1 ≠ '<' ∧ ∃ b, c.2 = p ++ b ∧ ∀ t ∈ b, Closable t) :
    scanHtml (produceHtml cs) = some cs := by
  suffices hs : ∃ fuel, scan fuel [] (produceHtml cs) = some cs by
    obtain ⟨fuel, hf⟩ := hs
    exact scan_enough fuel [] _ _ hf
  cases cs with
  | nil => exact ⟨1, rfl⟩
  | cons c cs =>
    obtain ⟨c, k⟩ := c
    obtain ⟨hc, b, hk, hb⟩ := h (c, k) (by simp)
    simp only at hk
    obtain ⟨fuel, hf⟩ := scan_produce p hp cs b hb fun x hx => h x (by simp [hx])
    have hchar : ∃ fuel, scan fuel k (c :: produce k cs) = some ((c, k) :: cs) := by
      refine ⟨fuel + 1, ?_⟩
      simp only at hc
      rw [scan_cons, if_neg hc, hk, hf]
      rfl
    have hread : ∀ t ∈ k, Readable t := by
      intro t ht
      rw [hk] at ht
      rcases List.mem_append.1 ht with ht | ht
      · exact (hp t ht).1
      · exact (hb t ht).1
    unfold produceHtml produce
    by_cases he : k = []
    · rw [if_neg (by simpa using he)]
      rw [he] at hchar ⊢
      exact hchar
    · rw [if_pos he]
      exact scan_change (p := []) (a := []) (b := k) (by simp) hread hchar

/-! ## Well-nested documents -/

/-- Well-nested documents: characters, and elements enclosed by tags.  `dopen` and
`dclose` are the texts between the angles of the opening and closing tags.  (No code of its own:
used in statements and proofs.) -/
inductive Doc where
  | nil
  | chr (c : Char) (next : Doc)
  | elem (dopen : Str) (tag : Tag) (body : Doc) (dclose : Str) (next : Doc)

/-- The text of a document.  (No code of its own: used in statements and proofs.) -/
def Doc.text : Doc → Str
  | .nil => []
  | .chr c next => c :: next.text
  | .elem o _ body c next => '<' :: o ++ '>' :: (body.text ++ ('<' :: c ++ '>' :: next.text))

/-- The characters of a document, in the context of the tags enclosing them.  (No code of its
own: used in statements and proofs.) -/
def Doc.chars (ctx : Ctx) : Doc → List Chr
  | .nil => []
  | .chr c next => (c, ctx) :: next.chars ctx
  | .elem _ t body _ next => body.chars (ctx ++ [t]) ++ next.chars ctx

/-- A name of a tag: ASCII, without blanks, quotes or angles.  (No code of its own: used in
statements and proofs.) -/
def IsName (n : Str) : Prop :=
  n ≠ [] ∧ ∀ c ∈ n, c.toNat < 128 ∧ ws c = false ∧ c ≠ '"' ∧ c ≠ '<' ∧ c ≠ '>'

/-- Capital letters are the same as small ones.  (No code of its own: used in statements and
proofs.) -/
def small (c : Char) : Char := if 'A' ≤ c ∧ c ≤ 'Z' then Char.ofNat (c.toNat + 32) else c

/-- The text `o` is that of a tag: a name, and properties, apart from the name by
blanks, in which quotes are closed and enclose every `'>'`.  (No code of its own: used in
statements and proofs.) -/
def OpenText (o : Str) (t : Tag) : Prop :=
  ∃ w1 n w2 : Str, o = w1 ++ (n ++ (w2 ++ t.properties)) ∧ (∀ c ∈ w1, ws c = true) ∧ IsName n ∧
    n.head? ≠ some '/' ∧ (∀ c ∈ w2, ws c = true) ∧ t.name = n.map small ∧
    (t.properties = [] ∨ w2 ≠ [] ∧ ∃ c r, t.properties = c :: r ∧ ws c = false) ∧
    walk false t.properties = some false

/-- The text `o` closes the tag `t`: a slash, the name and blanks.  (No code of its own: used in
statements and proofs.) -/
def CloseText (o : Str) (t : Tag) : Prop :=
  ∃ w1 n w2 : Str, o = w1 ++ ('/' :: n ++ w2) ∧ (∀ c ∈ w1, ws c = true) ∧ IsName n ∧
    (∀ c ∈ w2, ws c = true) ∧ t.name = n.map small

/-- The elements are enclosed by tags of the same name that are not
declarations, the characters are no opening angles.  (No code of its own: used in statements and
proofs.) -/
def Doc.Nested : Doc → Prop
  | .nil => True
  | .chr c next => c ≠ '<' ∧ next.Nested
  | .elem o t body c next => OpenText o t ∧ t.name.head? ≠ some '!' ∧ CloseText c t ∧ body.Nested ∧
      next.Nested

theorem lower_small {c : Char} (h : c.toNat < 128) : lower c = some (small c) := by
  have hall : ∀ n : Fin 128, lower (Char.ofNat n) = some (small (Char.ofNat n)) := by decide +kernel
  have := hall ⟨c.toNat, h⟩
  simpa only [Char.ofNat_toNat] using this

theorem lowerAll_small : ∀ {n : Str}, (∀ c ∈ n, c.toNat < 128) → lowerAll n = some (n.map small)
  | [], _ => rfl
  | c :: n, h => by
    rw [lowerAll, lower_small (h c (by simp)), lowerAll_small fun x hx => h x (by simp [hx])]
    rfl

theorem walk_plain : ∀ (q : Bool) {n : Str}, (∀ c ∈ n, c ≠ '"' ∧ c ≠ '>') → walk q n = some q
  | _, [], _ => rfl
  | q, c :: n, h => by
    obtain ⟨h1, h2⟩ := h c (by simp)
    simp only [walk, h1, h2, false_and, if_false]
    exact walk_plain q fun x hx => h x (by simp [hx])

theorem IsName.walk {n : Str} (h : IsName n) (q : Bool) : Html.walk q n = some q :=
  walk_plain q fun c hc => ⟨(h.2 c hc).2.2.1, (h.2 c hc).2.2.2.2⟩

theorem OpenText.parse {o : Str} {t : Tag} (h : OpenText o t) (rest : Str) :
    parseTag (o ++ '>' :: rest) = .opening t rest := by
  obtain ⟨w1, n, w2, rfl, h1, hn, hs, h2, ht, hp, hq⟩ := h
  unfold parseTag
  have hw : Html.walk false (w1 ++ (n ++ (w2 ++ t.properties))) = some false := by
    rw [walk_append, walk_ws _ _ h1, Option.bind_some, walk_append, hn.walk, Option.bind_some,
      walk_append, walk_ws _ _ h2, Option.bind_some, hq]
  rw [upTo_ok _ _ _ _ hw, List.nil_append]
  simp only
  rw [decode_tag h1 (fun c hc => (hn.2 c hc).2.1) hn.1 h2 hp]
  simp only [hs, if_false]
  rw [lowerAll_small fun c hc => (hn.2 c hc).1, ← ht]

theorem CloseText.parse {o : Str} {t : Tag} (h : CloseText o t) (rest : Str) :
    parseTag (o ++ '>' :: rest) = .closing ⟨t.name, []⟩ rest := by
  obtain ⟨w1, n, w2, rfl, h1, hn, h2, ht⟩ := h
  unfold parseTag
  have hw : Html.walk false (w1 ++ ('/' :: n ++ w2)) = some false := by
    rw [walk_append, walk_ws _ _ h1, Option.bind_some, List.cons_append]
    simp only [Html.walk]
    rw [if_neg (by simp), if_neg (by simp), walk_append, hn.walk, Option.bind_some, walk_ws _ _ h2]
  rw [upTo_ok _ _ _ _ hw, List.nil_append]
  simp only
  have := decode_tag (rest := rest) (pr := []) h1 (n := '/' :: n) (by
    intro c hc
    rcases List.mem_cons.1 hc with rfl | hc
    · rfl
    · exact (hn.2 c hc).2.1) (by simp) h2 (.inl rfl)
  rw [List.append_nil] at this
  rw [this]
  simp only [List.head?_cons, if_true, List.tail_cons]
  rw [lowerAll_small fun c hc => (hn.2 c hc).1, ← ht]

theorem OpenText.readable {o : Str} {t : Tag} (h : OpenText o t) : Readable t :=
  (parseTag_opening (h.parse [])).1

theorem OpenText.closed {o : Str} {t : Tag} (h : OpenText o t) : walk false t.name = some false := by
  obtain ⟨w1, n, w2, rfl, h1, hn, hs, h2, ht, hp, hq⟩ := h
  have hl := lowerAll_small fun c hc => (hn.2 c hc).1
  rw [ht, (lowerAll_facts hl).2.2.1, hn.walk]

/-- Scanning a well-nested document. -/
theorem scan_doc : ∀ (d : Doc) (ctx : Ctx) (rest : Str) (cs : List Chr), d.Nested →
    (∃ fuel, scan fuel ctx rest = some cs) →
    ∃ fuel, scan fuel ctx (d.text ++ rest) = some (d.chars ctx ++ cs)
  | .nil, _, _, _, _, h => h
  | .chr c next, ctx, rest, cs, hd, h => by
    obtain ⟨fuel, hf⟩ := scan_doc next ctx rest cs hd.2 h
    refine ⟨fuel + 1, ?_⟩
    simp only [Doc.text, Doc.chars, List.cons_append]
    rw [scan_cons, if_neg hd.1, hf]
    rfl
  | .elem o t body c next, ctx, rest, cs, hd, h => by
    obtain ⟨ho, _, hc, hb, hn⟩ := hd
    obtain ⟨f1, hf1⟩ := scan_doc next ctx rest cs hn h
    have h2 : ∃ fuel, scan fuel (ctx ++ [t]) ('<' :: (c ++ '>' :: (next.text ++ rest))) =
        some (next.chars ctx ++ cs) := by
      refine ⟨f1 + 1, ?_⟩
      rw [scan_cons, if_pos rfl, hc.parse]
      simp only
      rw [pop_last]
      exact hf1
    obtain ⟨f3, hf3⟩ := scan_doc body (ctx ++ [t]) _ _ hb h2
    refine ⟨f3 + 1, ?_⟩
    have e : (Doc.elem o t body c next).text ++ rest =
        '<' :: (o ++ '>' :: (body.text ++ '<' :: (c ++ '>' :: (next.text ++ rest)))) := by
      simp [Doc.text]
    rw [e, scan_cons, if_pos rfl, ho.parse]
    simp only
    rw [hf3]
    simp [Doc.chars]

/-- The characters of a well-nested document can be produced. -/
theorem Doc.chars_ok : ∀ (d : Doc) (p a : Ctx), d.Nested → (∀ t ∈ a, Closable t) →
    ∀ c ∈ d.chars (p ++ a), c.1 ≠ '<' ∧ ∃ b, c.2 = p ++ b ∧ ∀ t ∈ b, Closable t
  | .nil, _, _, _, _ => by intro c hc; cases hc
  | .chr c next, p, a, hd, ha => by
    intro x hx
    rcases List.mem_cons.1 hx with rfl | hx
    · exact ⟨hd.1, a, rfl, ha⟩
    · exact Doc.chars_ok next p a hd.2 ha x hx
  | .elem o t body c next, p, a, hd, ha => by
    obtain ⟨ho, h1, hc, hb, hn⟩ := hd
    intro x hx
    simp only [Doc.chars, List.mem_append, List.append_assoc] at hx
    rcases hx with hx | hx
    · refine Doc.chars_ok body p (a ++ [t]) hb ?_ x hx
      intro y hy
      rcases List.mem_append.1 hy with hy | hy
      · exact ha y hy
      · simp only [List.mem_singleton] at hy
        subst hy
        exact ⟨ho.readable, ho.closed, h1⟩
    · exact Doc.chars_ok next p a hn ha x hx

/-- Tags at the beginning of a text.  (No code of its own: used in statements and proofs.) -/
def declText : List (Str × Tag) → Str
  | [] => []
  | d :: ds => '<' :: d.1 ++ '>' :: declText ds

theorem scan_decl : ∀ (ds : List (Str × Tag)) (ctx : Ctx) (rest : Str) (cs : List Chr),
    (∀ d ∈ ds, OpenText d.1 d.2) → (∃ fuel, scan fuel (ctx ++ ds.map (·.2)) rest = some cs) →
    ∃ fuel, scan fuel ctx (declText ds ++ rest) = some cs
  | [], ctx, rest, cs, _, h => by simpa [declText] using h
  | d :: ds, ctx, rest, cs, hd, h => by
    obtain ⟨fuel, hf⟩ := scan_decl ds (ctx ++ [d.2]) rest cs (fun x hx => hd x (by simp [hx]))
      (by simpa using h)
    refine ⟨fuel + 1, ?_⟩
    have e : declText (d :: ds) ++ rest = '<' :: (d.1 ++ '>' :: (declText ds ++ rest)) := by
      simp [declText]
    rw [e, scan_cons, if_pos rfl, (hd d (by simp)).parse]
    exact hf

/-! ## Balanced tags -/

/-- What an HTML text consists of.  (No code of its own: used in statements and proofs.) -/
inductive Piece where
  | chr (c : Char)
  | op (t : Tag)
  | cl (name : Str)

/-- The text of a piece.  (No code of its own: used in statements and proofs.) -/
def Piece.text : Piece → Str
  | .chr c => [c]
  | .op t => '<' :: t.name ++ (if t.properties = [] then [] else ' ' :: t.properties) ++ ['>']
  | .cl n => '<' :: '/' :: n ++ ['>']

/-- Declarations need no closing tag.  (No code of its own: used in statements and proofs.) -/
def isDecl (t : Tag) : Bool := t.name.head? == some '!'

/-- Every closing tag closes the innermost open tag, and none is left open: the
names of the open tags, innermost first, are the first argument.  (No code of its own: used in
statements and proofs.) -/
def Balanced : List Str → List Piece → Prop
  | stack, [] => stack = []
  | stack, .chr _ :: ps => Balanced stack ps
  | stack, .op t :: ps => if isDecl t then Balanced stack ps else Balanced (t.name :: stack) ps
  | stack, .cl n :: ps => ∃ outer, stack = n :: outer ∧ Balanced outer ps

/-- Names of the tags to be closed.  (No code of its own: used in statements and proofs.) -/
def names (ctx : Ctx) : List Str := ((ctx.filter fun t => !isDecl t).map (·.name)).reverse

theorem names_append (a b : Ctx) : names (a ++ b) = names b ++ names a := by
  simp [names]

theorem balanced_opens : ∀ (ts : List Tag) (ctx : Ctx) (ps : List Piece),
    Balanced (names (ctx ++ ts)) ps → Balanced (names ctx) (ts.map .op ++ ps)
  | [], ctx, ps, h => by simpa using h
  | t :: ts, ctx, ps, h => by
    have := balanced_opens ts (ctx ++ [t]) ps (by simpa using h)
    simp only [List.map_cons, List.cons_append, Balanced]
    by_cases hd : isDecl t = true
    · rw [if_pos hd]
      simpa [names, hd] using this
    · rw [if_neg hd]
      simpa [names, hd] using this

theorem balanced_closes : ∀ (ns outer : List Str) (ps : List Piece), Balanced outer ps →
    Balanced (ns ++ outer) (ns.map .cl ++ ps)
  | [], _, _, h => h
  | n :: ns, outer, ps, h => ⟨ns ++ outer, rfl, balanced_closes ns outer ps h⟩

theorem text_opens (ts : List Tag) : (ts.map Piece.op).flatMap Piece.text = ts.flatMap openTag := by
  induction ts with
  | nil => rfl
  | cons t ts ih =>
    simp only [List.map_cons, List.flatMap_cons, ih]
    congr 1
    simp only [Piece.text, openTag]
    by_cases h : t.properties = [] <;> simp [h]

theorem text_closes : ∀ ts : Ctx, ((names ts).map Piece.cl).flatMap Piece.text =
    ts.reverse.flatMap closeTag := by
  intro ts
  rw [names, ← List.map_reverse, ← List.filter_reverse]
  generalize ts.reverse = l
  induction l with
  | nil => rfl
  | cons t l ih =>
    by_cases hd : isDecl t = true
    · have : t.name.head? = some '!' := by simpa [isDecl] using hd
      simpa [hd, closeTag, this] using ih
    · have : t.name.head? ≠ some '!' := by simpa [isDecl] using hd
      simpa [hd, closeTag, this, Piece.text] using ih

theorem balanced_change (a b : Ctx) (ps : List Piece) (h : Balanced (names b) ps) :
    ∃ qs, qs.flatMap Piece.text = changeContext a b ∧ Balanced (names a) (qs ++ ps) := by
  obtain ⟨p, e1, e2⟩ := differ_spec a b
  refine ⟨(names (differ a b).1).map .cl ++ (differ a b).2.map .op, ?_, ?_⟩
  · rw [List.flatMap_append, text_opens, text_closes]
    rfl
  · rw [List.append_assoc]
    conv => arg 1; rw [e1]
    rw [names_append]
    refine balanced_closes _ _ _ (balanced_opens _ _ _ ?_)
    rw [← e2]
    exact h

theorem filterMap_nothing {α β : Type} : ∀ l : List α, l.filterMap (fun _ => (none : Option β)) = []
  | [] => rfl
  | _ :: l => filterMap_nothing l

/-- The characters in a text.  (No code of its own: used in statements and proofs.) -/
def Piece.chr? : Piece → Option Char
  | .chr c => some c
  | _ => none

theorem balanced_produce : ∀ (cs : List Chr) (ctx : Ctx),
    ∃ ps, ps.flatMap Piece.text = produce ctx cs ∧ Balanced (names ctx) ps ∧
      ps.filterMap Piece.chr? = cs.map (·.1)
  | [], ctx => by
    obtain ⟨p, e1, e2⟩ := differ_spec ctx []
    refine ⟨(names ctx).map .cl, ?_, ?_, ?_⟩
    · rw [text_closes]; simp [produce, changeContext, differ_nil]
    · have := balanced_closes (names ctx) [] [] rfl
      simpa using this
    · rw [List.filterMap_map]; exact filterMap_nothing _
  | (c, k) :: cs, ctx => by
    obtain ⟨ps, h1, h2, h3⟩ := balanced_produce cs k
    unfold produce
    by_cases he : k = ctx
    · subst he
      rw [if_neg (by simp)]
      exact ⟨.chr c :: ps, by simp [Piece.text, h1], h2, by simp [h3, Piece.chr?]⟩
    · rw [if_pos he]
      obtain ⟨p, e1, e2⟩ := differ_spec ctx k
      refine ⟨(names (differ ctx k).1).map .cl ++ (differ ctx k).2.map .op ++ (.chr c :: ps), ?_, ?_, ?_⟩
      · rw [List.flatMap_append, List.flatMap_append, text_opens, text_closes]
        simp [Piece.text, h1, changeContext]
      · rw [List.append_assoc]
        conv => arg 1; rw [e1]
        rw [names_append]
        refine balanced_closes _ _ _ (balanced_opens _ _ _ ?_)
        rw [← e2]
        exact h2
      · rw [List.filterMap_append, List.filterMap_append, List.filterMap_map, List.filterMap_map]
        have e1 : (names (differ ctx k).1).filterMap (Piece.chr? ∘ Piece.cl) = [] :=
          filterMap_nothing _
        have e2 : (differ ctx k).2.filterMap (Piece.chr? ∘ Piece.op) = [] := filterMap_nothing _
        rw [e1, e2]
        simp [h3, Piece.chr?]

/-! ## Undefined behaviour -/

theorem lowerAll_ascii {s : Str} (h : ∀ c ∈ s, c.toNat < 128) : ∃ t, lowerAll s = some t :=
  ⟨_, lowerAll_small h⟩

/-- A tag is a suffix of the text from some point on. -/
theorem parseTag_rest {txt rest : Str} {t : Tag}
    (h : parseTag txt = .opening t rest ∨ parseTag txt = .closing t rest) :
    ∃ s, txt = s ++ '>' :: rest := by
  unfold parseTag at h
  cases hu : upTo false [] txt with
  | none => rw [hu] at h; rcases h with h | h <;> cases h
  | some p =>
    obtain ⟨buf, r⟩ := p
    rw [hu] at h
    simp only at h
    obtain ⟨s, hs, htxt, _⟩ := upTo_some _ _ _ _ _ hu
    refine ⟨s, ?_⟩
    have : r = rest := by
      rcases buf_split buf with hb | ⟨w1, n, w2, pr, e, h1, hn, hn0, h2, hp⟩
      · rw [decode_blank hb] at h; rcases h with h | h <;> cases h
      · subst e
        rw [decode_tag h1 hn hn0 h2 hp] at h
        split at h
        · rcases h with h | h <;> cases h
        · split at h <;> rcases h with h | h <;> cases h <;> rfl
    rw [htxt, this]

theorem parseTag_ub {txt : Str} (h : ∀ c ∈ txt, c.toNat < 128) : parseTag txt ≠ .ub := by
  intro hh
  unfold parseTag at hh
  cases hu : upTo false [] txt with
  | none => rw [hu] at hh; cases hh
  | some p =>
    obtain ⟨buf, r⟩ := p
    rw [hu] at hh
    simp only at hh
    obtain ⟨s, hs, htxt, _⟩ := upTo_some _ _ _ _ _ hu
    rw [List.nil_append] at hs
    subst hs
    rcases buf_split buf with hb | ⟨w1, n, w2, pr, e, h1, hn, hn0, h2, hp⟩
    · rw [decode_blank hb] at hh; cases hh
    · subst e
      rw [decode_tag h1 hn hn0 h2 hp] at hh
      have hall : ∀ c ∈ (if n.head? = some '/' then n.tail else n), c.toNat < 128 := by
        intro c hc
        apply h c
        rw [htxt]
        have : c ∈ n := by
          split at hc
          · exact List.mem_of_mem_tail hc
          · exact hc
        simp [this]
      obtain ⟨t, ht⟩ := lowerAll_ascii hall
      rw [ht] at hh
      simp only at hh
      split at hh <;> cases hh

theorem scan_defined : ∀ (fuel : Nat) (ctx : Ctx) (txt : Str), txt.length < fuel →
    (∀ c ∈ txt, c.toNat < 128) → txt.getLast? ≠ some '<' → (scan fuel ctx txt).isSome = true := by
  intro fuel
  induction fuel with
  | zero => intro ctx txt h; cases h
  | succ fuel ih =>
    intro ctx txt hl ha hlast
    have tail : ∀ {s rest : Str}, txt = s ++ rest → s ≠ [] → ∀ ctx,
        (scan fuel ctx rest).isSome = true := by
      intro s rest e hs ctx
      have hsl : 0 < s.length := List.length_pos_iff.2 hs
      refine ih ctx rest ?_ (fun c hc => ha c (by rw [e]; simp [hc])) ?_
      · have := congrArg List.length e
        simp at this
        omega
      · intro h
        apply hlast
        rw [e, List.getLast?_append, h]
        rfl
    cases txt with
    | nil => rfl
    | cons c txt =>
      rw [scan_cons]
      by_cases hc : c = '<'
      · rw [if_pos hc]
        cases hp : parseTag txt with
        | ub => exact absurd hp (parseTag_ub fun x hx => ha x (by simp [hx]))
        | opening t rest =>
          obtain ⟨s, hs⟩ := parseTag_rest (.inl hp)
          exact tail (s := c :: s ++ ['>']) (by rw [hs]; simp) (by simp) _
        | closing t rest =>
          obtain ⟨s, hs⟩ := parseTag_rest (.inr hp)
          exact tail (s := c :: s ++ ['>']) (by rw [hs]; simp) (by simp) _
        | failure =>
          cases txt with
          | nil => subst hc; exact absurd rfl hlast
          | cons d rest =>
            simp only [Option.isSome_map]
            exact tail (s := [c, d]) rfl (by simp) ctx
      · rw [if_neg hc, Option.isSome_map]
        exact tail (s := [c]) rfl (by simp) ctx

/-- The number of opening angles a text ends with.  (No code of its own: used in statements and proofs.) -/
def anglesAtEnd (txt : Str) : Nat := (txt.reverse.takeWhile (· == '<')).length

theorem anglesAtEnd_append (a : Str) (c : Char) (b : Str) (hc : c ≠ '<') :
    anglesAtEnd (a ++ c :: b) = anglesAtEnd b := by
  unfold anglesAtEnd
  rw [List.reverse_append, List.reverse_cons, List.append_assoc, List.takeWhile_append]
  split
  · simp_all
  · rfl

theorem anglesAtEnd_pair (b : Str) : anglesAtEnd ('<' :: '<' :: b) % 2 = anglesAtEnd b % 2 := by
  unfold anglesAtEnd
  rw [List.reverse_cons, List.reverse_cons, List.append_assoc, List.takeWhile_append]
  split
  · next h => simp_all
  · rfl

theorem anglesAtEnd_split (txt : Str) :
    ∃ a, txt = a ++ List.replicate (anglesAtEnd txt) '<' ∧ a.getLast? ≠ some '<' := by
  refine ⟨(txt.reverse.dropWhile (· == '<')).reverse, ?_, ?_⟩
  · have h := List.takeWhile_append_dropWhile (p := (· == '<')) (l := txt.reverse)
    have hr : txt.reverse.takeWhile (· == '<') = List.replicate (anglesAtEnd txt) '<' := by
      rw [List.eq_replicate_iff]
      exact ⟨rfl, fun b hb => by simpa using List.all_eq_true.1 (List.all_takeWhile (p := (· == '<')) (l := txt.reverse)) b hb⟩
    rw [hr] at h
    have := congrArg List.reverse h
    simpa using this.symm
  · rw [List.getLast?_reverse]
    intro h
    have := List.head?_dropWhile_not (· == '<') txt.reverse
    rw [h] at this
    simp at this

theorem anglesAtEnd_replicate {a : Str} (h : a.getLast? ≠ some '<') (n : Nat) :
    anglesAtEnd (a ++ List.replicate n '<') = n := by
  unfold anglesAtEnd
  rw [List.reverse_append, List.reverse_replicate, List.takeWhile_append]
  have e : (List.replicate n '<').takeWhile (· == '<') = List.replicate n '<' := by
    simp
  rw [e, if_pos rfl, List.length_append, List.length_replicate]
  rw [← List.head?_reverse] at h
  cases hr : a.reverse with
  | nil => rfl
  | cons c l =>
    rw [hr] at h
    simp_all

theorem scan_exact : ∀ (fuel : Nat) (ctx : Ctx) (txt : Str), txt.length < fuel →
    (∀ c ∈ txt, c.toNat < 128) → ((scan fuel ctx txt).isSome = true ↔ anglesAtEnd txt % 2 = 0) := by
  intro fuel
  induction fuel with
  | zero => intro ctx txt h; cases h
  | succ fuel ih =>
    intro ctx txt hl ha
    have tail : ∀ {s rest : Str}, txt = s ++ rest → s ≠ [] → anglesAtEnd txt % 2 = anglesAtEnd rest % 2 → ∀ ctx,
        ((scan fuel ctx rest).isSome = true ↔ anglesAtEnd txt % 2 = 0) := by
      intro s rest e hs he ctx
      have hsl : 0 < s.length := List.length_pos_iff.2 hs
      rw [he]
      refine ih ctx rest ?_ (fun c hc => ha c (by rw [e]; simp [hc]))
      have := congrArg List.length e
      simp at this
      omega
    cases txt with
    | nil => simp [scan, anglesAtEnd]
    | cons c txt =>
      rw [scan_cons]
      by_cases hc : c = '<'
      · rw [if_pos hc]
        cases hp : parseTag txt with
        | ub => exact absurd hp (parseTag_ub fun x hx => ha x (by simp [hx]))
        | opening t rest =>
          obtain ⟨s, hs⟩ := parseTag_rest (.inl hp)
          exact tail (s := c :: s ++ ['>']) (by rw [hs]; simp) (by simp)
            (by rw [hs, ← List.cons_append, anglesAtEnd_append _ _ _ (by decide)]) _
        | closing t rest =>
          obtain ⟨s, hs⟩ := parseTag_rest (.inr hp)
          exact tail (s := c :: s ++ ['>']) (by rw [hs]; simp) (by simp)
            (by rw [hs, ← List.cons_append, anglesAtEnd_append _ _ _ (by decide)]) _
        | failure =>
          cases txt with
          | nil => subst hc; simp [anglesAtEnd]
          | cons d rest =>
            simp only [Option.isSome_map]
            refine tail (s := [c, d]) rfl (by simp) ?_ ctx
            by_cases hd : d = '<'
            · subst hc hd
              exact anglesAtEnd_pair rest
            · exact congrArg (· % 2) (anglesAtEnd_append [c] d rest hd)
      · rw [if_neg hc, Option.isSome_map]
        exact tail (s := [c]) rfl (by simp) (congrArg (· % 2) (anglesAtEnd_append [] c txt hc)) ctx

end Verif.Html
