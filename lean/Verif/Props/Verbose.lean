import Verif.VerboseMain
import Verif.Sample

/-!
# C53: what the verbose factory prints

The factory of /repo/example/custom_factory.cpp prints a line whenever it stores (`new`), finds (`hit`) or
removes (`del`) an entry.
-/

set_option autoImplicit false

namespace Verif.Props
open Verif.Verbose

variable {K V Rep : Type} {P : Policy K V Rep} {sp : SrcSpec K V} {L : P.Lawful sp} {trk : Tracking}
  {less : K → K → Bool} {ok : OrderOk less} {LS : sp.Lawful (incomparable less)}

/-- (No code of its own: an example.) -/
def verbose (trk : Tracking) := Setup.verbose (DRep.lawful Sample.u₀) trk Sample.lessOk
  (SrcSpec.default_lawful Sample.lessOk.equiv)

/-- (No code of its own: an example.)  The lines after a program. -/
def printed (trk : Tracking) (fl : Nat → Bool) (ops : List (Op Nat Nat)) : Option (List (Note (Option Nat))) :=
  ((verbose trk).run id fl Sample.alloc ops).map fun p => lines (DRep.policy Sample.u₀) p.2

/-- Whatever program is run and whichever user operations throw, the lines make sense one after the other
(nothing is stored twice, found without being stored, or removed without being stored), and read in order
they tell which keys are in use: with `refcounted`, exactly those of the live flyweights. -/
theorem C53_replay (T : P.Tidy) {hp : Nat → Nat} {fl : Nat → Bool} {alloc : Nat → List Nat → Nat}
    (hal : ∀ n l, alloc n l ∉ l) {ops : List (Op K V)} {outs : List (Out K V)} {s : St Rep (VFac Rep)}
    (h : (Setup.verbose L trk ok LS).run hp fl alloc ops = some (outs, s)) :
    ∃ notes o, lines P s = notes.map (Note.map some) ∧ readNotes (incomparable less) [] notes = some o ∧
      (o.Pairwise fun a b => incomparable less a b = false) ∧
      (∀ x a k v, (Setup.verbose L trk ok LS).Sees s x a k v → ∃ l ∈ o, incomparable less l k = true) ∧
      (trk = .refcounted → ∀ l ∈ o, ∃ x a k v, (Setup.verbose L trk ok LS).Sees s x a k v ∧
        incomparable less l k = true) := by
  obtain ⟨t, notes, _, h2, h3, h4⟩ := run_lines T hal h
  obtain ⟨o, ho⟩ := ledger h2 h4
  refine ⟨notes, o, h4, ho.read, ho.apart, fun x a k v hx => ?_, ?_⟩
  · exact ho.all ⟨a, k, v⟩ (h3.bound ((Setup.sees_iff h2).1 hx))
  · rintro rfl l hl
    obtain ⟨b, hb, hlb⟩ := ho.sub l hl
    obtain ⟨⟨x, c⟩, hx, rfl⟩ := List.mem_map.1 hb
    exact ⟨x, c.addr, c.key, c.val, (Setup.sees_iff h2).2 hx, hlb⟩

example : printed .refcounted Sample.calm
    [.make 0 (.copy 3), .make 1 (.copy 13), .make 2 (.copy 4), .destroy 0, .assign 1 2, .make 3 (.copy 23)] =
    some [.new (some 3), .hit (some 13), .new (some 4), .del (some 3), .new (some 23)] := by decide +kernel

/-- Making a flyweight prints one line: `hit` if the factory has an entry with an equivalent key, else
`new`, with the key asked for. -/
theorem C53_make (T : P.Tidy) {s s' : St Rep (VFac Rep)} {fl : Nat → Bool} {alloc : Nat → List Nat → Nat}
    {hp hp' : Nat → Nat} (hal : ∀ n l, alloc n l ∉ l) {ops : List (Op K V)} {outs : List (Out K V)}
    (h : (Setup.verbose L trk ok LS).run hp fl alloc ops = some (outs, s)) {x : Nat} {src : Src K V}
    (hx : x ∉ s.objs.map Prod.fst) (hsrc : sp.supports src = true) {out : Out K V}
    (hm : (Setup.verbose L trk ok LS).perform hp' (.make x src) s = .ok out s') :
    ((∃ i e k, s.fac.1.lookup i = some e ∧ P.toKey e.rep = some k ∧ incomparable less k (sp.key0 src) = true) →
      lines P s' = lines P s ++ [.hit (some (sp.key0 src))]) ∧
    ((¬ ∃ i e k, s.fac.1.lookup i = some e ∧ P.toKey e.rep = some k ∧
      incomparable less k (sp.key0 src) = true) → lines P s' = lines P s ++ [.new (some (sp.key0 src))]) := by
  obtain ⟨t, notes, _, h2, h3, h4⟩ := run_lines T hal h
  have hv : Op.valid sp t.names (.make x src) = true := by
    have : t.names = s.objs.map Prod.fst := h2.rel.vars.names
    rw [this]; simp only [Op.valid, hsrc, Bool.and_true, Bool.not_eq_true']
    simpa using hx
  obtain ⟨t', δ, _, _, hl, h5⟩ := perform_lines T h2 h3 h4 hv hm
  have hδ : δ = [told (incomparable less) (t.pool trk) (sp.key0 src)] := hl
  rw [hδ, List.map_append, ← h4] at h5
  have hpool : ((t.pool trk).any fun b => incomparable less b.key (sp.key0 src)) = true ↔
      ∃ i e k, s.fac.1.lookup i = some e ∧ P.toKey e.rep = some k ∧ incomparable less k (sp.key0 src) = true := by
    have hp := Setup.Rel.pool h2.rel
    rw [List.any_eq_true]
    constructor
    · rintro ⟨b, hb, hk⟩
      obtain ⟨i, e, he, hf, _⟩ := (hp b).1 hb
      exact ⟨i, e, b.key, he, L.full_key hf, hk⟩
    · rintro ⟨i, e, k, he, hk, hkk⟩
      obtain ⟨k', v, hf⟩ := h2.rel.inv.full i e he
      have : some k = some k' := hk.symm.trans (L.full_key hf)
      cases this
      exact ⟨⟨s.addr i, k, v⟩, (hp _).2 ⟨i, e, he, hf, rfl⟩, hkk⟩
  refine ⟨fun h => ?_, fun h => ?_⟩
  · rw [h5]
    simp only [told, hpool.2 h, if_true]
    rfl
  · rw [h5]
    have : ¬ ((t.pool trk).any fun b => incomparable less b.key (sp.key0 src)) = true := fun h' => h (hpool.1 h')
    simp only [told, if_neg this]
    rfl

example : printed .noTracking Sample.calm [.make 0 (.copy 3), .destroy 0, .make 0 (.copy 13)] =
    some [.new (some 3), .hit (some 13)] := by decide +kernel

/-- With `refcounted`: `hit` if some live flyweight has an equivalent key, else `new`. -/
theorem C53_make_live (T : P.Tidy) {s s' : St Rep (VFac Rep)} {fl : Nat → Bool} {alloc : Nat → List Nat → Nat}
    {hp hp' : Nat → Nat} (hal : ∀ n l, alloc n l ∉ l) {ops : List (Op K V)} {outs : List (Out K V)}
    (h : (Setup.verbose L .refcounted ok LS).run hp fl alloc ops = some (outs, s)) {x : Nat} {src : Src K V}
    (hx : x ∉ s.objs.map Prod.fst) (hsrc : sp.supports src = true) {out : Out K V}
    (hm : (Setup.verbose L .refcounted ok LS).perform hp' (.make x src) s = .ok out s') :
    ((∃ y a k v, (Setup.verbose L .refcounted ok LS).Sees s y a k v ∧ incomparable less k (sp.key0 src) = true) →
      lines P s' = lines P s ++ [.hit (some (sp.key0 src))]) ∧
    ((¬ ∃ y a k v, (Setup.verbose L .refcounted ok LS).Sees s y a k v ∧
      incomparable less k (sp.key0 src) = true) → lines P s' = lines P s ++ [.new (some (sp.key0 src))]) := by
  obtain ⟨t, notes, _, h2, h3, h4⟩ := run_lines T hal h
  have h1 := C53_make T hal h hx hsrc hm
  have hp := Setup.Rel.pool h2.rel
  have hiff : (∃ i e k, s.fac.1.lookup i = some e ∧ P.toKey e.rep = some k ∧
      incomparable less k (sp.key0 src) = true) ↔ ∃ y a k v, (Setup.verbose L .refcounted ok LS).Sees s y a k v ∧
      incomparable less k (sp.key0 src) = true := by
    constructor
    · rintro ⟨i, e, k, he, hk, hkk⟩
      obtain ⟨k', v, hf⟩ := h2.rel.inv.full i e he
      have : some k = some k' := hk.symm.trans (L.full_key hf)
      cases this
      have hb := (hp ⟨s.addr i, k, v⟩).2 ⟨i, e, he, hf, rfl⟩
      obtain ⟨⟨y, c⟩, hy, hc⟩ := List.mem_map.1 hb
      dsimp only at hc
      subst hc
      exact ⟨y, _, _, _, (Setup.sees_iff h2).2 hy, hkk⟩
    · rintro ⟨y, a, k, v, hy, hkk⟩
      obtain ⟨i, e, he, hf, _⟩ := (hp ⟨a, k, v⟩).1 (List.mem_map.2 ⟨_, (Setup.sees_iff h2).1 hy, rfl⟩)
      exact ⟨i, e, k, he, L.full_key hf, hkk⟩
  rw [hiff] at h1
  exact h1

example : printed .refcounted Sample.calm [.make 0 (.copy 3), .destroy 0, .make 0 (.copy 13), .make 1 (.copy 23)] =
    some [.new (some 3), .del (some 3), .new (some 13), .hit (some 23)] := by decide +kernel

/-- Destroying a flyweight: with `refcounted`, a line `del` with its key if no other flyweight has an equivalent
key; otherwise nothing. -/
theorem C53_destroy (T : P.Tidy) {s s' : St Rep (VFac Rep)} {fl : Nat → Bool} {alloc : Nat → List Nat → Nat}
    {hp hp' : Nat → Nat} (hal : ∀ n l, alloc n l ∉ l) {ops : List (Op K V)} {outs : List (Out K V)}
    (h : (Setup.verbose L trk ok LS).run hp fl alloc ops = some (outs, s)) {x a : Nat} {k : K} {v : V}
    (hx : (Setup.verbose L trk ok LS).Sees s x a k v) {out : Out K V}
    (hm : (Setup.verbose L trk ok LS).perform hp' (.destroy x) s = .ok out s') :
    ((trk = .refcounted ∧ ∀ y a' k' v', y ≠ x → (Setup.verbose L trk ok LS).Sees s y a' k' v' →
      incomparable less k' k = false) → lines P s' = lines P s ++ [.del (some k)]) ∧
    ((trk = .noTracking ∨ ∃ y a' k' v', y ≠ x ∧ (Setup.verbose L trk ok LS).Sees s y a' k' v' ∧
      incomparable less k' k = true) → lines P s' = lines P s) := by
  obtain ⟨t, notes, _, h2, h3, h4⟩ := run_lines T hal h
  have hxt := (Setup.sees_iff h2).1 hx
  have hv : Op.valid sp t.names (.destroy x) = true := by
    simpa [Op.valid] using (Verbose.mem_names.2 ⟨_, hxt⟩ : x ∈ t.names)
  obtain ⟨t', δ, hst, _, hl, h5⟩ := perform_lines T h2 h3 h4 hv hm
  obtain ⟨b, hb, rfl⟩ := hl
  have : b = ⟨a, k, v⟩ := bind_unique h3.nodup hb hxt
  subst this
  rw [List.map_append, ← h4] at h5
  cases hst
  refine ⟨?_, ?_⟩
  · rintro ⟨rfl, hno⟩
    rw [h5]
    have hn : ¬ ((t.vars.filter fun p => p.1 ≠ x).any fun p => incomparable less p.2.key k) = true := by
      intro h
      obtain ⟨⟨y, c⟩, hy, hc⟩ := List.any_eq_true.1 h
      simp only [List.mem_filter, decide_eq_true_eq] at hy
      have := hno y c.addr c.key c.val hy.2 ((Setup.sees_iff h2).2 hy.1)
      have hc' : incomparable less c.key k = true := hc
      rw [this] at hc'
      cases hc'
    simp only [dropped]
    rw [if_neg hn]
    rfl
  · rintro (rfl | ⟨y, a', k', v', hne, hy, hk⟩)
    · rw [h5]; simp [dropped]
    · rw [h5]
      unfold dropped
      split
      · rw [if_pos]
        · simp
        · exact List.any_eq_true.2 ⟨(y, ⟨a', k', v'⟩), by
            simp only [List.mem_filter, decide_eq_true_eq]
            exact ⟨(Setup.sees_iff h2).1 hy, hne⟩, hk⟩
      · simp

example : printed .refcounted Sample.calm [.make 0 (.copy 3), .make 1 (.copy 13), .destroy 0, .destroy 1] =
    some [.new (some 3), .hit (some 13), .del (some 3)] := by decide +kernel

/-- Assigning a flyweight: with `refcounted`, a line `del` with the former key if afterwards no flyweight has an
equivalent key; otherwise nothing. -/
theorem C53_assign (T : P.Tidy) {s s' : St Rep (VFac Rep)} {fl : Nat → Bool} {alloc : Nat → List Nat → Nat}
    {hp hp' : Nat → Nat} (hal : ∀ n l, alloc n l ∉ l) {ops : List (Op K V)} {outs : List (Out K V)}
    (h : (Setup.verbose L trk ok LS).run hp fl alloc ops = some (outs, s)) {x y a a' : Nat} {k k' : K} {v v' : V}
    (hx : (Setup.verbose L trk ok LS).Sees s x a k v) (hy : (Setup.verbose L trk ok LS).Sees s y a' k' v')
    {out : Out K V} (hm : (Setup.verbose L trk ok LS).perform hp' (.assign x y) s = .ok out s') :
    ((trk = .refcounted ∧ ∀ z a' k' v', (Setup.verbose L trk ok LS).Sees s' z a' k' v' →
      incomparable less k' k = false) → lines P s' = lines P s ++ [.del (some k)]) ∧
    ((trk = .noTracking ∨ ∃ z a' k' v', (Setup.verbose L trk ok LS).Sees s' z a' k' v' ∧
      incomparable less k' k = true) → lines P s' = lines P s) := by
  obtain ⟨t, notes, _, h2, h3, h4⟩ := run_lines T hal h
  have hxt := (Setup.sees_iff h2).1 hx
  have hyt := (Setup.sees_iff h2).1 hy
  have hv : Op.valid sp t.names (.assign x y) = true := by
    have h1 : x ∈ t.names := Verbose.mem_names.2 ⟨_, hxt⟩
    have h2 : y ∈ t.names := Verbose.mem_names.2 ⟨_, hyt⟩
    simp [Op.valid, h1, h2]
  obtain ⟨t', δ, _, h6, hl, h5⟩ := perform_lines T h2 h3 h4 hv hm
  obtain ⟨b, hb, rfl⟩ := hl
  have : b = ⟨a, k, v⟩ := bind_unique h3.nodup hb hxt
  subst this
  rw [List.map_append, ← h4] at h5
  refine ⟨?_, ?_⟩
  · rintro ⟨rfl, hno⟩
    rw [h5]
    have hn : ¬ (t'.vars.any fun p => incomparable less p.2.key k) = true := by
      intro h
      obtain ⟨⟨z, c⟩, hz, hc⟩ := List.any_eq_true.1 h
      have := hno z c.addr c.key c.val ((Setup.sees_iff h6).2 hz)
      have hc' : incomparable less c.key k = true := hc
      rw [this] at hc'
      cases hc'
    simp only [dropped]
    rw [if_neg hn]
    rfl
  · rintro (rfl | ⟨z, a', k', v', hz, hk⟩)
    · rw [h5]; simp [dropped]
    · rw [h5]
      unfold dropped
      split
      · rw [if_pos]
        · simp
        · exact List.any_eq_true.2 ⟨(z, ⟨a', k', v'⟩), (Setup.sees_iff h6).1 hz, hk⟩
      · simp

example : printed .refcounted Sample.calm [.make 0 (.copy 3), .make 1 (.copy 4), .assign 0 0, .assign 0 1] =
    some [.new (some 3), .new (some 4), .del (some 3)] := by decide +kernel

/-- Assigning a value: first the line of making a flyweight from it, then that of destroying the former
flyweight; in this order, so that assigning an equivalent value removes nothing. -/
theorem C53_assign_value (T : P.Tidy) {s s' : St Rep (VFac Rep)} {fl : Nat → Bool} {alloc : Nat → List Nat → Nat}
    {hp hp' : Nat → Nat} (hal : ∀ n l, alloc n l ∉ l) {ops : List (Op K V)} {outs : List (Out K V)}
    (h : (Setup.verbose L .refcounted ok LS).run hp fl alloc ops = some (outs, s)) {x a : Nat} {k : K} {v : V}
    (hx : (Setup.verbose L .refcounted ok LS).Sees s x a k v) {src : Src K V} (hsrc : sp.supports src = true)
    {out : Out K V} (hm : (Setup.verbose L .refcounted ok LS).perform hp' (.assignVal x src) s = .ok out s') :
    ∃ n d, lines P s' = lines P s ++ n :: d ∧
      ((∃ y a k v, (Setup.verbose L .refcounted ok LS).Sees s y a k v ∧ incomparable less k (sp.key0 src) = true) →
        n = .hit (some (sp.key0 src))) ∧
      ((¬ ∃ y a k v, (Setup.verbose L .refcounted ok LS).Sees s y a k v ∧
        incomparable less k (sp.key0 src) = true) → n = .new (some (sp.key0 src))) ∧
      ((∃ y a' k' v', (Setup.verbose L .refcounted ok LS).Sees s' y a' k' v' ∧ incomparable less k' k = true) →
        d = []) ∧
      ((¬ ∃ y a' k' v', (Setup.verbose L .refcounted ok LS).Sees s' y a' k' v' ∧ incomparable less k' k = true) →
        d = [.del (some k)]) := by
  obtain ⟨t, notes, _, h2, h3, h4⟩ := run_lines T hal h
  have hxt := (Setup.sees_iff h2).1 hx
  have hv : Op.valid sp t.names (.assignVal x src) = true := by
    have h1 : x ∈ t.names := Verbose.mem_names.2 ⟨_, hxt⟩
    simp [Op.valid, h1, hsrc]
  obtain ⟨t', δ, _, h6, hl, h5⟩ := perform_lines T h2 h3 h4 hv hm
  obtain ⟨b, hb, rfl⟩ := hl
  have : b = ⟨a, k, v⟩ := bind_unique h3.nodup hb hxt
  subst this
  rw [List.map_append, ← h4] at h5
  have pool : ∀ {s : St Rep (VFac Rep)} {t : SSt K V} (_ : Setup.Sim (Setup.verbose L .refcounted ok LS) fl s t) (k : K),
      (t.vars.any fun p => incomparable less p.2.key k) = true ↔
      ∃ y a' k' v', (Setup.verbose L .refcounted ok LS).Sees s y a' k' v' ∧ incomparable less k' k = true := by
    intro s t h2 k
    rw [List.any_eq_true]
    constructor
    · rintro ⟨⟨y, c⟩, hy, hc⟩
      exact ⟨y, c.addr, c.key, c.val, (Setup.sees_iff h2).2 hy, hc⟩
    · rintro ⟨y, a', k', v', hy, hk⟩
      exact ⟨(y, ⟨a', k', v'⟩), (Setup.sees_iff h2).1 hy, hk⟩
  refine ⟨_, _, h5, fun h => ?_, fun h => ?_, fun h => ?_, fun h => ?_⟩
  · have := (pool h2 _).2 h
    simp only [told, SSt.pool, List.any_map]
    rw [if_pos (by exact this)]
    rfl
  · have : ¬ _ := fun h' => h ((pool h2 _).1 h')
    simp only [told, SSt.pool, List.any_map]
    rw [if_neg (by exact this)]
    rfl
  · simp only [dropped]
    rw [if_pos ((pool h6 _).2 h)]
    rfl
  · simp only [dropped]
    rw [if_neg fun h' => h ((pool h6 _).1 h')]
    rfl

example : printed .refcounted Sample.calm
    [.make 0 (.copy 3), .assignVal 0 (.copy 13), .assignVal 0 (.copy 4)] =
    some [.new (some 3), .hit (some 13), .new (some 4), .del (some 3)] := by decide +kernel

/-- No other operation prints anything. -/
theorem C53_quiet {s s' : St Rep (VFac Rep)} {hp : Nat → Nat} {op : Op K V}
    (hop : match op with
      | .make .. | .assign .. | .assignVal .. | .destroy .. => False
      | _ => True) {out : Out K V}
    (hm : (Setup.verbose L trk ok LS).perform hp op s = .ok out s' ∨
      (Setup.verbose L trk ok LS).perform hp op s = .exc s') : lines P s' = lines P s := by
  have h1 := Quiet.step (liftLt P less) P trk hp hop s.fac.2 s rfl
  have h2 : s'.fac.2 = s.fac.2 := by
    rcases hm with hm | hm
    · have : Core.step P (verboseFactory (liftLt P less)) trk hp op s = .ok out s' := hm
      rw [this] at h1
      exact h1
    · have : Core.step P (verboseFactory (liftLt P less)) trk hp op s = .exc s' := hm
      rw [this] at h1
      exact h1
  unfold lines
  rw [h2]

example : printed .refcounted Sample.calm [.make 0 (.copy 3), .copy 1 0, .swap 0 1, .get 0, .eq 0 1, .hash 1] =
    some [.new (some 3)] := by decide +kernel

/-- An operation that throws prints nothing, or, if the key was not stored, two lines: `new` and `del` with the
key asked for. -/
theorem C53_throw (T : P.Tidy) {s s' : St Rep (VFac Rep)} {fl : Nat → Bool} {alloc : Nat → List Nat → Nat}
    {hp hp' : Nat → Nat} (hal : ∀ n l, alloc n l ∉ l) {ops : List (Op K V)} {outs : List (Out K V)}
    (h : (Setup.verbose L trk ok LS).run hp fl alloc ops = some (outs, s)) {op : Op K V}
    (hv : op.valid sp (s.objs.map Prod.fst) = true)
    (hm : (Setup.verbose L trk ok LS).perform hp' op s = .exc s') :
    ∃ src, ((∃ x, op = .make x src) ∨ ∃ x, op = .assignVal x src) ∧
      (lines P s' = lines P s ∨
        lines P s' = lines P s ++ [.new (some (sp.key0 src)), .del (some (sp.key0 src))] ∧
        ∀ i e k, s.fac.1.lookup i = some e → P.toKey e.rep = some k → incomparable less k (sp.key0 src) = false) := by
  obtain ⟨t, notes, _, h2, h3, h4⟩ := run_lines T hal h
  have hn : t.names = s.objs.map Prod.fst := h2.rel.vars.names
  obtain ⟨_, δ, ⟨src, hop, hδ⟩, h5⟩ := perform_lines_exc T h2 h4 (by rw [hn]; exact hv) hm
  refine ⟨src, hop, ?_⟩
  rw [List.map_append, ← h4] at h5
  rcases hδ with rfl | ⟨htold, rfl⟩
  · left; rw [h5]; simp
  · right
    refine ⟨by rw [h5]; rfl, fun i e k he hk => ?_⟩
    cases hc : incomparable less k (sp.key0 src) with
    | false => rfl
    | true =>
      obtain ⟨k', v, hf⟩ := h2.rel.inv.full i e he
      have : some k = some k' := hk.symm.trans (L.full_key hf)
      cases this
      have hb : ⟨s.addr i, k, v⟩ ∈ t.pool trk := (Setup.Rel.pool h2.rel _).2 ⟨i, e, he, hf, rfl⟩
      have hany : ((t.pool trk).any fun b => incomparable less b.key (sp.key0 src)) = true :=
        List.any_eq_true.2 ⟨_, hb, hc⟩
      simp only [told, hany, if_true] at htold
      cases htold

/-- (No code of its own: an example.)  Values are constructed after the key has been stored. -/
def verboseVar := Setup.verbose (VRep.lawful Sample.u) .refcounted Sample.lessOk
  (SrcSpec.variant_lawful Sample.u Sample.lessOk.equiv fun k => by simp [Sample.u, incomparable, Sample.less])

/-- (No code of its own: an example.)  The results and lines of a program. -/
def printedVar (fl : Nat → Bool) (ops : List (Op Nat (Nat × Nat))) : Option (Nat × List (Note (Option Nat))) :=
  (verboseVar.run id fl Sample.alloc ops).map fun p =>
    (p.1.countP fun o => match o with | .threw => true | _ => false, lines (VRep.policy Sample.u) p.2)

example : printedVar (Sample.failAt 5) [.make 0 (.key 3), .make 0 (.key 13)] =
    some (1, [.new (some 3), .del (some 3), .new (some 13)]) := by decide +kernel

/-- With `no_tracking`, `del` is only printed by operations that throw. -/
theorem C53_kept (T : P.Tidy) {hp : Nat → Nat} {fl : Nat → Bool} {alloc : Nat → List Nat → Nat}
    (hal : ∀ n l, alloc n l ∉ l) {ops : List (Op K V)} {outs : List (Out K V)} {s : St Rep (VFac Rep)}
    (h : (Setup.verbose L .noTracking ok LS).run hp fl alloc ops = some (outs, s)) (ht : .threw ∉ outs) (k : K) :
    .del (some k) ∉ lines P s := by
  obtain ⟨t, notes, h1, _, _, h4⟩ := run_lines T hal h
  rw [h4]
  have : ∀ n ∈ notes, n.isDel = false := by
    clear h h4 ‹Setup.Sim _ _ _ _› ‹SOk _ _ _›
    generalize (SSt.start : SSt K V) = t0 at h1
    induction h1 with
    | nil => intro n hn; cases hn
    | @step t op out t' δ ops outs δs t'' hv hne hs hl hr ih =>
      intro n hn
      rcases List.mem_append.1 hn with hn | hn
      · have htold : ∀ (l : List (Bind K V)) (k : K), (told (incomparable less) l k).isDel = false := by
          intro l k
          unfold told
          split <;> rfl
        cases op with
        | make x src =>
          have hl' : δ = _ := hl
          rw [hl'] at hn
          simp only [List.mem_singleton] at hn
          rw [hn]; exact htold _ _
        | assign x y => obtain ⟨b, _, rfl⟩ := hl; cases hn
        | destroy x => obtain ⟨b, _, rfl⟩ := hl; cases hn
        | assignVal x src =>
          obtain ⟨b, _, rfl⟩ := hl
          simp only [dropped, List.mem_singleton] at hn
          rw [hn]; exact htold _ _
        | _ =>
          have hl' : δ = [] := hl
          rw [hl'] at hn
          cases hn
      · exact ih (fun h => ht (by simp [h])) n hn
    | thrw => exact absurd (by simp) ht
    | skip _ _ ih => exact ih fun h => ht (by simp [h])
  intro hd
  obtain ⟨n, hn, hd⟩ := List.mem_map.1 hd
  have := this n hn
  cases n with
  | del k => cases this
  | new k => cases hd
  | hit k => cases hd

example : printed .noTracking Sample.calm [.make 0 (.copy 3), .assignVal 0 (.copy 4), .destroy 0] =
    some [.new (some 3), .new (some 4)] := by decide +kernel

/-- As many `new` as `del` and keys in use; with `refcounted`, when all flyweights are gone, as many `new` as
`del`. -/
theorem C53_balance (T : P.Tidy) {hp : Nat → Nat} {fl : Nat → Bool} {alloc : Nat → List Nat → Nat}
    (hal : ∀ n l, alloc n l ∉ l) {ops : List (Op K V)} {outs : List (Out K V)} {s : St Rep (VFac Rep)}
    (h : (Setup.verbose L trk ok LS).run hp fl alloc ops = some (outs, s)) :
    (lines P s).countP Note.isNew = (lines P s).countP Note.isDel + s.fac.1.length ∧
    (trk = .refcounted → s.objs = [] → (lines P s).countP Note.isNew = (lines P s).countP Note.isDel) := by
  obtain ⟨t, notes, _, h2, h3, h4⟩ := run_lines T hal h
  have q : EquivOk (incomparable (liftLt P less)) := (liftLt_ok P ok).equiv
  obtain ⟨⟨hn, hsorted⟩, o, ho, hst⟩ := (show (_ ∧ _) ∧ _ from h2.rel.inv.fac)
  have hmem : ∀ i e, (i, e) ∈ s.fac.1 ↔ s.fac.1.lookup i = some e := fun i e =>
    ⟨fun h => Assoc.lookup_of_mem hn h, fun h => Assoc.lookup_mem h⟩
  have hlen : o.length = s.fac.1.length := by
    have h1 := length_le q (b := s.fac.1.map Prod.snd) hst.apart fun a ha => by
      obtain ⟨i, e, he, hae⟩ := hst.sub a ha
      exact ⟨e, List.mem_map.2 ⟨(i, e), (hmem i e).2 he, rfl⟩, hae⟩
    have h2 := length_le q (a := s.fac.1.map Prod.snd) (b := o) (by
      rw [List.pairwise_map]
      refine List.Pairwise.imp (fun {p r} h => ?_) hsorted
      show incomparable (liftLt P less) p.2 r.2 = false
      simp [incomparable, show liftLt P less p.2 r.2 = true from h]) fun e he => by
        obtain ⟨⟨i, e'⟩, hi, rfl⟩ := List.mem_map.1 he
        obtain ⟨a, ha, hae⟩ := hst.all i e' ((hmem i e').1 hi)
        exact ⟨a, ha, q.symm _ _ hae⟩
    simp at h1 h2
    omega
  have hc := (readNotes_count q .nil ho).2
  have hnew : (lines P s).countP Note.isNew = s.fac.2.countP Note.isNew := by
    unfold lines
    rw [List.countP_map]
    congr 1
    funext n
    cases n <;> rfl
  have hdel : (lines P s).countP Note.isDel = s.fac.2.countP Note.isDel := by
    unfold lines
    rw [List.countP_map]
    congr 1
    funext n
    cases n <;> rfl
  simp only [List.length_nil, Nat.add_zero] at hc
  refine ⟨by rw [hnew, hdel, hc, hlen], ?_⟩
  rintro rfl hobjs
  rw [hnew, hdel, hc, hlen]
  cases hf : s.fac.1 with
  | nil => rfl
  | cons p l =>
    exfalso
    have he : s.fac.1.lookup p.1 = some p.2 := (hmem p.1 p.2).1 (by rw [hf]; simp)
    have := (h2.rel.inv.counts rfl p.1 p.2 he).2.1
    simp [Setup.refs, hobjs, Setup.none] at this

example : printed .refcounted (Sample.failAt 5)
    [.make 0 (.copy 3), .make 1 (.copy 4), .make 1 (.copy 5), .destroy 0, .destroy 1] =
    some [.new (some 3), .new (some 5), .del (some 3), .del (some 5)] := by decide +kernel

/-- Programs that make flyweights of tokens, move or copy them about so that some flyweight of each token stays,
and then destroy them all, print, if nothing throws, `new` for each token seen for the first time, `hit` for the
others, and in the end with `refcounted` one `del` for each different token. -/
theorem C53_tokens (T : P.Tidy) {hp : Nat → Nat} {fl : Nat → Bool} {alloc : Nat → List Nat → Nat}
    (hal : ∀ n l, alloc n l ∉ l) {srcs : List (Src K V)} (hs : ∀ src ∈ srcs, sp.supports src = true)
    {ops : List (Op K V)} (hops : Prog 0 [] srcs ops) {outs : List (Out K V)} (ht : .threw ∉ outs)
    {s : St Rep (VFac Rep)} (h : (Setup.verbose L trk ok LS).run hp fl alloc ops = some (outs, s)) :
    ∃ ds, lines P s = (askLines (incomparable less) [] (srcs.map sp.key0) ++ ds.map Note.del).map (Note.map some) ∧
      (trk = .noTracking → ds = []) ∧
      (ds.Pairwise fun a b => incomparable less a b = false) ∧
      (∀ d ∈ ds, ∃ src ∈ srcs, incomparable less d (sp.key0 src) = true) ∧
      (trk = .refcounted → ∀ src ∈ srcs, ∃ d ∈ ds, incomparable less d (sp.key0 src) = true) ∧ s.objs = [] := by
  obtain ⟨t, notes, h1, h2, h3, h4⟩ := run_lines T hal h
  have hh : Held trk (incomparable less) (SSt.start : SSt K V) [] [] := by
    refine ⟨fun x => by simp [SSt.start, SSt.names], fun x b i h => (by cases h), fun k => ?_⟩
    cases trk <;> rfl
  obtain ⟨hvars, ds, rfl, hf⟩ := prog_lines LS hops hs rfl hh (SOk.start _ _) ht h1
  have hobjs : s.objs = [] := by
    have := h2.rel.vars.names
    rw [hvars] at this
    exact List.map_eq_nil_iff.1 this.symm
  refine ⟨ds, h4, hf.none, hf.apart, fun d hd => ?_, fun htrk src hsrc => ?_, hobjs⟩
  · obtain ⟨k, hk, hdk⟩ := hf.sub d hd
    simp only [List.nil_append] at hk
    obtain ⟨src, hsrc, rfl⟩ := List.mem_map.1 hk
    exact ⟨src, hsrc, hdk⟩
  · exact hf.all htrk _ (by simpa using ⟨src, hsrc, rfl⟩)

example : printed .noTracking Sample.calm [.make 0 (.copy 5), .copy 1 0, .destroy 0, .make 0 (.copy 15),
    .move 2 1, .destroy 2, .destroy 0, .destroy 1] = some [.new (some 5), .hit (some 15)] := by decide +kernel

/-- `main` of the example, whatever the text and however the vector grows: the flyweights of type
`flyweight<std::string,verbose_factory>`, keys being equivalent only if equal. -/
theorem C53_main {K : Type} {u : UserFns K K} {less : K → K → Bool} (ok : OrderOk less)
    (hless : ∀ k l, incomparable less k l = true → k = l) {hp : Nat → Nat} {fl : Nat → Bool}
    (hfl : ∀ n, fl n = false) {alloc : Nat → List Nat → Nat} (hal : ∀ n l, alloc n l ∉ l) (grow : Nat → Nat)
    (tokens : List K) :
    ∃ (outs : List (Out K K)) (s : St (DRep K) (VFac (DRep K))) (ds : List K), (Setup.verbose (DRep.lawful u) .refcounted ok (SrcSpec.default_lawful ok.equiv)).run hp fl alloc
        (mainOps grow ⟨0, 0, []⟩ (tokens.map .copy)) = some (outs, s) ∧
      lines (DRep.policy u) s =
        (askLines (incomparable less) [] tokens ++ ds.map Note.del).map (Note.map some) ∧
      ds.Nodup ∧ (∀ k, k ∈ ds ↔ k ∈ tokens) ∧ s.objs = [] ∧ s.fac.1 = [] := by
  let S := Setup.verbose (DRep.lawful u) .refcounted ok (SrcSpec.default_lawful ok.equiv)
  obtain ⟨outs, s, t, h1, h2, h3, h4⟩ := Setup.exec_sim (S := S) hp
    (mainOps grow ⟨0, 0, []⟩ (tokens.map .copy)) (Setup.sim_start S fl hal)
  have ht : .threw ∉ outs := fun h => by
    obtain ⟨n, hn⟩ := h4 h
    rw [hfl n] at hn
    cases hn
  have hprog : Prog 0 [] (tokens.map (Src.copy (K := K))) (mainOps grow ⟨0, 0, []⟩ (tokens.map .copy)) :=
    prog_main grow _ ⟨0, 0, []⟩ [] (by simp) (by simp) (by simp)
  obtain ⟨ds, hl, _, hap, hsub, hall, hobjs⟩ := C53_tokens (L := DRep.lawful u) (trk := .refcounted) (ok := ok)
    (LS := SrcSpec.default_lawful ok.equiv) (DRep.tidy u) hal (fun _ _ => rfl) hprog ht h1
  have hk : (tokens.map (Src.copy (K := K))).map (SrcSpec.default K).key0 = tokens := by
    rw [List.map_map]
    exact List.map_id tokens
  rw [hk] at hl
  refine ⟨outs, s, ds, h1, hl, ?_, fun k => ⟨fun h => ?_, fun h => ?_⟩, hobjs, ?_⟩
  · refine hap.imp fun {a b} h hab => ?_
    rw [hab] at h
    have := ok.equiv.refl b
    rw [h] at this
    cases this
  · obtain ⟨src, hsrc, hd⟩ := hsub k h
    obtain ⟨k', hk', rfl⟩ := List.mem_map.1 hsrc
    rw [hless k k' hd]
    exact hk'
  · obtain ⟨d, hd, hdk⟩ := hall rfl (.copy k) (List.mem_map.2 ⟨k, h, rfl⟩)
    rw [← hless d k hdk]
    exact hd
  · cases hf : s.fac.1 with
    | nil => rfl
    | cons p l =>
      exfalso
      obtain ⟨⟨hn, _⟩, _⟩ := (show (_ ∧ _) ∧ _ from h3.rel.inv.fac)
      have he : s.fac.1.lookup p.1 = some p.2 := Assoc.lookup_of_mem hn (by rw [hf]; simp)
      have := (h3.rel.inv.counts rfl p.1 p.2 he).2.1
      simp [Setup.refs, hobjs, Setup.none] at this

example : printed .refcounted Sample.calm (mainOps (fun c => 2 * c + 1) ⟨0, 0, []⟩
    ([5, 7, 5, 8, 7].map .copy)) =
    some [.new (some 5), .new (some 7), .hit (some 5), .new (some 8), .hit (some 7),
      .del (some 5), .del (some 8), .del (some 7)] := by decide +kernel

end Verif.Props
