import Verif.Verbose

/-!
# The lines printed by the verbose factory

In terms of keys, for whole operations.
-/

set_option autoImplicit false

namespace Verif

/-- A flyweight type with the factory of /repo/example/custom_factory.cpp:36-74, 82-89. -/
def Setup.verbose {K V Rep : Type} {P : Policy K V Rep} {sp : SrcSpec K V} (L : P.Lawful sp) (trk : Tracking)
    {less : K → K → Bool} (ok : OrderOk less) (LS : sp.Lawful (incomparable less)) :
    Setup K V Rep (Verbose.VFac Rep) where
  P := P
  Fa := verboseFactory (liftLt P less)
  trk := trk
  sp := sp
  keq := incomparable less
  eqv e e' := incomparable (liftLt P less) e e' = true
  L := L
  LF := verboseFactory.noted (liftLt_ok P ok)
  LS := LS
  hkey := liftLt_key P less

namespace Verbose
variable {K V Rep : Type}

/-- The lines printed so far, /repo/example/custom_factory.cpp:55-67; `none` where a key was not there to be
printed.  Simplification: printing does not throw. -/
def lines (P : Policy K V Rep) (s : St Rep (VFac Rep)) : List (Note (Option K)) :=
  s.fac.2.map (Note.map fun e => P.toKey e.rep)

/-- Which lines an operation may print.  (No code of its own: used in statements and proofs.) -/
def Shape (sp : SrcSpec K V) (trk : Tracking) (t : SSt K V) : Op K V → List (Note K) → Prop
  | .make _ src, δ => δ = [.hit (sp.key0 src)] ∨ δ = [.new (sp.key0 src)]
  | .assign x _, δ => δ = [] ∨ trk = .refcounted ∧ ∃ b, (x, b) ∈ t.vars ∧ δ = [.del b.key]
  | .destroy x, δ => δ = [] ∨ trk = .refcounted ∧ ∃ b, (x, b) ∈ t.vars ∧ δ = [.del b.key]
  | .assignVal x src, δ => ∃ n, (n = .hit (sp.key0 src) ∨ n = .new (sp.key0 src)) ∧
      (δ = [n] ∨ trk = .refcounted ∧ ∃ b, (x, b) ∈ t.vars ∧ δ = [n, .del b.key])
  | _, δ => δ = []

section Ops
variable {P : Policy K V Rep} (T : P.Tidy) (lt : Ent Rep → Ent Rep → Bool) {κ : Nat → Option K}
  {l : List (Note (Ent Rep))} {o : List (Nat × Nat)}

theorem view_handleOf (x : Nat) {E : St Rep (VFac Rep) → Prop} :
    Weak (View P κ l o) (Core.handleOf x) (fun h s => o.lookup x = some h ∧ View P κ l o s) E := by
  refine Weak.bind (R := fun a s => a.objs = o ∧ View P κ l o s) (.read fun s h => ⟨h.objs, h⟩) fun a =>
    Weak.pre fun ha => ?_
  rw [ha]
  cases hx : o.lookup x with
  | none => exact .undef
  | some h => exact .ret fun s hs => ⟨rfl, hs⟩

include T in
theorem view_destroy (trk : Tracking) (x : Nat) {E : St Rep (VFac Rep) → Prop} :
    Weak (View P κ l o) (Core.destroy P (verboseFactory lt) trk x)
      (fun _ s => ∃ h, o.lookup x = some h ∧ (s.fac.2 = l ∨ trk = .refcounted ∧ ∃ e, P.toKey e.rep = κ h ∧
        s.fac.2 = l ++ [.del e])) E := by
  refine Weak.bind (view_handleOf x) fun h => Weak.pre fun hh => ?_
  refine Weak.bind (R := fun _ => View P κ l (o.filter fun p => p.1 ≠ x))
    (.update fun s hs => ⟨hs.log, by show s.objs.filter _ = _; rw [hs.objs], hs.keys⟩) fun _ => ?_
  refine (view_handleDtor lt T trk h).conseq (fun _ h => h) (fun _ s hs => ⟨h, hh, ?_⟩) fun _ h => h
  rcases hs with hs | ⟨ht, e, h1, h2, _⟩
  · exact .inl hs.log
  · exact .inr ⟨ht, e, h1, h2.log⟩

include T in
theorem view_assignHandle (trk : Tracking) (x h : Nat) {E : St Rep (VFac Rep) → Prop} :
    Weak (View P κ l o) (Core.assignHandle P (verboseFactory lt) trk x h)
      (fun _ s => ∃ old, o.lookup x = some old ∧ ∃ l', View P κ l' (Assoc.setVar o x h) s ∧
        (l' = l ∨ trk = .refcounted ∧ ∃ e, P.toKey e.rep = κ old ∧ l' = l ++ [.del e])) E := by
  refine Weak.bind (view_handleCopy lt trk h) fun _ => ?_
  refine Weak.bind (view_handleOf x) fun old => Weak.pre fun hh => ?_
  refine Weak.bind (R := fun _ => View P κ l (Assoc.setVar o x h))
    (.update fun s hs => ⟨hs.log, by show Assoc.setVar s.objs x h = _; rw [hs.objs], hs.keys⟩) fun _ => ?_
  refine (view_handleDtor lt T trk old).conseq (fun _ h => h) (fun _ s hs => ⟨old, hh, ?_⟩) fun _ h => h
  rcases hs with hs | ⟨ht, e, h1, h2, _⟩
  · exact ⟨l, hs, .inl rfl⟩
  · exact ⟨_, h2, .inr ⟨ht, e, h1, rfl⟩⟩

end Ops

section Shape
variable {P : Policy K V Rep} {sp : SrcSpec K V} {L : P.Lawful sp} {trk : Tracking} {less : K → K → Bool}
  {ok : OrderOk less} {LS : sp.Lawful (incomparable less)} (T : P.Tidy)

theorem key_of_at {s : St Rep (VFac Rep)} {i : Nat} {b : Bind K V} (h : (Setup.verbose L trk ok LS).At s i b) :
    ((s.fac.1.lookup i).bind fun e => P.toKey e.rep) = some b.key := by
  obtain ⟨e, he, hf, _⟩ := h
  have he' : s.fac.1.lookup i = some e := he
  rw [he']
  exact L.full_key hf

theorem lines_append {s s' : St Rep (VFac Rep)} {d : List (Note (Ent Rep))} {δ : List (Note K)}
    (h : s'.fac.2 = s.fac.2 ++ d) (hd : d.map (Note.map fun e => P.toKey e.rep) = δ.map (Note.map some)) :
    lines P s' = lines P s ++ δ.map (Note.map some) := by
  unfold lines
  rw [h, List.map_append, hd]

include T in
/-- What an operation that succeeds prints. -/
theorem step_shape {fl : Nat → Bool} {s s' : St Rep (VFac Rep)} {t : SSt K V}
    (hS : Setup.Sim (Setup.verbose L trk ok LS) fl s t) {hp : Nat → Nat} {op : Op K V}
    (hv : op.valid sp (s.objs.map Prod.fst) = true) {out : Out K V}
    (h : (Setup.verbose L trk ok LS).perform hp op s = .ok out s') :
    ∃ δ, lines P s' = lines P s ++ δ.map (Note.map some) ∧ Shape sp trk t op δ := by
  have hR := hS.rel
  obtain ⟨t', _, hS'⟩ := Setup.perform_ok (S := Setup.verbose L trk ok LS) hS hv h
  have look : ∀ {x i : Nat}, s.objs.lookup x = some i → ∃ b, (x, b) ∈ t.vars ∧
      ((s.fac.1.lookup i).bind fun e => P.toKey e.rep) = some b.key := by
    intro x i hx
    obtain ⟨b, hb, hat⟩ := hR.vars.lookup hx
    exact ⟨b, hb, key_of_at hat⟩
  have quiet : Quiet (Core.step P (verboseFactory (liftLt P less)) trk hp op) → lines P s' = lines P s := by
    intro hq
    have h1 := hq s.fac.2 s rfl
    have h2 : Core.step P (verboseFactory (liftLt P less)) trk hp op s = .ok out s' := h
    rw [h2] at h1
    have h3 : s'.fac.2 = s.fac.2 := h1
    unfold lines
    rw [h3]
  have h2 : Core.step P (verboseFactory (liftLt P less)) trk hp op s = .ok out s' := h
  have drop : ∀ {m : M (St Rep (VFac Rep)) Unit} {Q : St Rep (VFac Rep) → Prop},
      Core.step P (verboseFactory (liftLt P less)) trk hp op = (m >>= fun _ => pure .done) →
      Weak (· = s) m (fun _ => Q) (fun _ => True) → Q s' := by
    intro m Q he hw
    have h1 := (Weak.bind hw fun _ => Weak.ret (a := (.done : Out K V)) (Q := fun _ => Q) fun _ h => h) s rfl
    rw [← he, h2] at h1
    exact h1
  have fresh : Before s.fac.2 s := ⟨rfl, by
    cases hn : s.fac.1.lookup s.nextId with
    | none => rfl
    | some e =>
      have hn' : ((Setup.verbose L trk ok LS).Fa.entry s.fac s.nextId).isSome := by
        show (s.fac.1.lookup s.nextId).isSome = true
        rw [hn]; rfl
      exact absurd (hR.inv.lt _ hn') (Nat.lt_irrefl _)⟩
  have one : ∀ {b : Bind K V} {e : Ent Rep}, P.toKey e.rep = some b.key →
      [Note.del e].map (Note.map fun e => P.toKey e.rep) = [Note.del b.key].map (Note.map some) := by
    intro b e he
    simp [Note.map, he]
  cases op with
  | make x src =>
    simp [Op.valid] at hv
    have := drop (m := Core.make P (verboseFactory (liftLt P less)) trk x src) (Q := Told P sp src s.fac.2) rfl
      (Weak.bind ((told_insert L T (liftLt P less) src trk hv.2).conseq (fun s' h => by rw [h]; exact fresh)
        (fun _ _ h => h) fun _ _ => trivial) fun _ => .update fun s h => told_fixed src s _ rfl rfl h)
    obtain ⟨e, hk, he | he⟩ := this
    · exact ⟨[.hit (sp.key0 src)], lines_append he (by simp [Note.map, show P.toKey e.rep = _ from hk]), .inl rfl⟩
    · exact ⟨[.new (sp.key0 src)], lines_append he (by simp [Note.map, show P.toKey e.rep = _ from hk]), .inr rfl⟩
  | assign x y =>
    have hw : Weak (View P (fun i => (s.fac.1.lookup i).bind fun e => P.toKey e.rep) s.fac.2 s.objs)
        (Core.assign P (verboseFactory (liftLt P less)) trk x y) (fun _ s' => ∃ old, s.objs.lookup x = some old ∧
          ∃ l', View P (fun i => (s.fac.1.lookup i).bind fun e => P.toKey e.rep) l' (s'.objs) s' ∧
          (l' = s.fac.2 ∨ trk = .refcounted ∧ ∃ e, P.toKey e.rep =
            ((s.fac.1.lookup old).bind fun e => P.toKey e.rep) ∧ l' = s.fac.2 ++ [.del e])) (fun _ => True) :=
      Weak.bind (view_handleOf y) fun h => Weak.pre fun _ =>
        (view_assignHandle T _ trk x h).conseq (fun _ h => h)
          (fun _ s' ⟨old, h1, l', h2, h3⟩ => ⟨old, h1, l', by rw [h2.objs]; exact h2, h3⟩) fun _ h => h
    obtain ⟨old, hold, hh⟩ := drop (m := Core.assign P (verboseFactory (liftLt P less)) trk x y) rfl
      (hw.conseq (fun s' h => by rw [h]; exact .of P s) (fun _ _ h => h) fun _ _ => trivial)
    obtain ⟨b, hb, hk⟩ := look hold
    obtain ⟨l', hv, rfl | ⟨ht, e, h1, rfl⟩⟩ := hh
    · exact ⟨[], by unfold lines; rw [hv.log]; simp, .inl rfl⟩
    · exact ⟨[.del b.key], lines_append hv.log (one (h1.trans hk)), .inr ⟨ht, b, hb, rfl⟩⟩
  | destroy x =>
    obtain ⟨i, hi, hh⟩ := drop (m := Core.destroy P (verboseFactory (liftLt P less)) trk x) rfl
      ((view_destroy T _ trk x (E := fun _ => True)).conseq (fun s' h => by rw [h]; exact .of P s) (fun _ _ h => h) fun _ _ => trivial)
    obtain ⟨b, hb, hk⟩ := look hi
    rcases hh with hh | ⟨ht, e, h1, hh⟩
    · exact ⟨[], by unfold lines; rw [hh]; simp, .inl rfl⟩
    · exact ⟨[.del b.key], lines_append hh (one (h1.trans hk)), .inr ⟨ht, b, hb, rfl⟩⟩
  | assignVal x src =>
    simp [Op.valid] at hv
    have hins := (Setup.insert_spec (S := Setup.verbose L trk ok LS) hR.inv hv.2).weak
      (show Weak (· = s) (Core.insert P (verboseFactory (liftLt P less)) trk src) (fun _ => Told P sp src s.fac.2)
        (fun _ => True) from
        (told_insert L T (liftLt P less) src trk hv.2).conseq (fun s' h => by rw [h]; exact fresh)
        (fun _ _ h => h) fun _ _ => trivial)
    have := drop (m := Core.assignVal P (verboseFactory (liftLt P less)) trk x src)
      (Q := fun s' => ∃ l1 h old b, (∃ e, Key0 P sp src e ∧ (l1 = s.fac.2 ++ [.hit e] ∨ l1 = s.fac.2 ++ [.new e])) ∧
        s.objs.lookup x = some old ∧ (x, b) ∈ t.vars ∧ ∃ l2,
        (l2 = l1 ∨ trk = .refcounted ∧ ∃ e, P.toKey e.rep = some b.key ∧ l2 = l1 ++ [.del e]) ∧
        (s'.fac.2 = l2 ∨ s'.objs = Assoc.setVar s.objs x h ∧ s'.fac.1.lookup h = none)) rfl
      (Weak.bind (hins.toWeak.conseq (fun _ h => h) (fun _ _ h => h) fun _ _ => trivial) fun h => Weak.at ?_)
    · obtain ⟨l1, h, old, b, ⟨e, hk, h1⟩, hold, hb, l2, h2, h3⟩ := this
      have h3' : s'.fac.2 = l2 := by
        rcases h3 with h3 | ⟨h3, h4⟩
        · exact h3
        · exfalso
          have hm : (x, h) ∈ s'.objs := by
            rw [h3]
            exact List.mem_map.2 ⟨(x, old), Assoc.lookup_mem hold, by simp⟩
          have := hS'.rel.inv.objs _ hm
          have h5 : (s'.fac.1.lookup h).isSome = true := this
          rw [h4] at h5
          cases h5
      have hk' : P.toKey e.rep = some (sp.key0 src) := hk
      rcases h2 with h2 | ⟨ht, e', hk2, h2⟩
      · rcases h1 with h1 | h1
        · exact ⟨[.hit (sp.key0 src)], lines_append (d := [.hit e]) (by rw [h3', h2, h1]) (by simp [Note.map, hk']),
            _, .inl rfl, .inl rfl⟩
        · exact ⟨[.new (sp.key0 src)], lines_append (d := [.new e]) (by rw [h3', h2, h1]) (by simp [Note.map, hk']),
            _, .inr rfl, .inl rfl⟩
      · rcases h1 with h1 | h1
        · exact ⟨[.hit (sp.key0 src), .del b.key], lines_append (d := [.hit e, .del e'])
            (by rw [h3', h2, h1]; simp) (by simp [Note.map, hk', hk2]), _, .inl rfl, .inr ⟨ht, b, hb, rfl⟩⟩
        · exact ⟨[.new (sp.key0 src), .del b.key], lines_append (d := [.new e, .del e'])
            (by rw [h3', h2, h1]; simp) (by simp [Note.map, hk', hk2]), _, .inr rfl, .inr ⟨ht, b, hb, rfl⟩⟩
    · rintro s1 ⟨⟨hO, _⟩, e, hk, he⟩
      refine ((Weak.bind (view_assignHandle T (liftLt P less) trk x h) fun _ =>
        Weak.at (Q := fun (_ : Unit) (s' : St Rep (VFac Rep)) => ∃ l1 h old b,
          (∃ e, Key0 P sp src e ∧ (l1 = s.fac.2 ++ [.hit e] ∨ l1 = s.fac.2 ++ [.new e])) ∧
          s.objs.lookup x = some old ∧ (x, b) ∈ t.vars ∧ ∃ l2,
          (l2 = l1 ∨ trk = .refcounted ∧ ∃ e, P.toKey e.rep = some b.key ∧ l2 = l1 ++ [.del e]) ∧
          (s'.fac.2 = l2 ∨ s'.objs = Assoc.setVar s.objs x h ∧ s'.fac.1.lookup h = none)) ?_)).conseq
        (fun s' h => by rw [h]; exact .of P s1) (fun _ _ h => h) fun _ h => h
      rintro s2 ⟨old, hold, l2, hv2, hd⟩
      have ho : s1.objs = s.objs := hO.frame.objs
      rw [ho] at hold hv2
      obtain ⟨b, hb, hat⟩ := hR.vars.lookup hold
      have hat1 : (Setup.verbose L trk ok LS).At s1 old b := by
        rcases hO.created with ⟨_, _, _, hc⟩ | ⟨_, _, _, _, _, hc⟩
        · exact (hc old b).2 hat
        · exact (hc old b).2 (.inl hat)
      have hkb := key_of_at hat1
      refine (view_handleDtor (liftLt P less) T trk h).conseq (fun s' h => by rw [h]; exact hv2) ?_ fun _ h => h
      intro _ s' hs'
      refine ⟨s1.fac.2, h, old, b, ⟨e, hk, he⟩, hold, hb, l2, ?_, ?_⟩
      · rcases hd with rfl | ⟨ht, e', h1, rfl⟩
        · exact .inl rfl
        · exact .inr ⟨ht, e', h1.trans hkb, rfl⟩
      · rcases hs' with hs' | ⟨_, _, _, hs', hn⟩
        · exact .inl hs'.log
        · exact .inr ⟨hs'.objs, hn⟩
  | init => exact ⟨[], by rw [quiet (Quiet.step _ P trk hp trivial)]; simp, rfl⟩
  | copy x y => exact ⟨[], by rw [quiet (Quiet.step _ P trk hp trivial)]; simp, rfl⟩
  | move x y => exact ⟨[], by rw [quiet (Quiet.step _ P trk hp trivial)]; simp, rfl⟩
  | swap x y => exact ⟨[], by rw [quiet (Quiet.step _ P trk hp trivial)]; simp, rfl⟩
  | get x => exact ⟨[], by rw [quiet (Quiet.step _ P trk hp trivial)]; simp, rfl⟩
  | getKey x => exact ⟨[], by rw [quiet (Quiet.step _ P trk hp trivial)]; simp, rfl⟩
  | eq x y => exact ⟨[], by rw [quiet (Quiet.step _ P trk hp trivial)]; simp, rfl⟩
  | hash x => exact ⟨[], by rw [quiet (Quiet.step _ P trk hp trivial)]; simp, rfl⟩


include T in
/-- What an operation that throws prints. -/
theorem step_shape_exc {fl : Nat → Bool} {s s' : St Rep (VFac Rep)} {t : SSt K V}
    (hS : Setup.Sim (Setup.verbose L trk ok LS) fl s t) {hp : Nat → Nat} {op : Op K V}
    (hv : op.valid sp (s.objs.map Prod.fst) = true)
    (h : (Setup.verbose L trk ok LS).perform hp op s = .exc s') :
    ∃ src, ((∃ x, op = .make x src) ∨ ∃ x, op = .assignVal x src) ∧
      (lines P s' = lines P s ∨ lines P s' = lines P s ++
        [.new (some (sp.key0 src)), .del (some (sp.key0 src))]) := by
  have hR := hS.rel
  obtain ⟨hstep, hS', _⟩ := Setup.perform_exc (S := Setup.verbose L trk ok LS) hS hv h
  have h2 : Core.step P (verboseFactory (liftLt P less)) trk hp op s = .exc s' := h
  have fresh : Before s.fac.2 s := ⟨rfl, by
    cases hn : s.fac.1.lookup s.nextId with
    | none => rfl
    | some e =>
      have hn' : ((Setup.verbose L trk ok LS).Fa.entry s.fac s.nextId).isSome := by
        show (s.fac.1.lookup s.nextId).isSome = true
        rw [hn]; rfl
      exact absurd (hR.inv.lt _ hn') (Nat.lt_irrefl _)⟩
  have fin : ∀ {src : Src K V}, sp.supports src = true →
      Core.insert P (verboseFactory (liftLt P less)) trk src s = .exc s' →
      (lines P s' = lines P s ∨ lines P s' = lines P s ++
        [.new (some (sp.key0 src)), .del (some (sp.key0 src))]) := by
    intro src hs hi
    have h1 := told_insert L T (liftLt P less) src trk hs s fresh
    rw [hi] at h1
    have hIns := Setup.insert_spec (S := Setup.verbose L trk ok LS) hR.inv hs s rfl
    have hi' : Core.insert (Setup.verbose L trk ok LS).P (Setup.verbose L trk ok LS).Fa
      (Setup.verbose L trk ok LS).trk src s = .exc s' := hi
    rw [hi'] at hIns
    rcases h1 with h1 | ⟨e, e', hk, h1 | ⟨hk', h1⟩⟩
    · left; unfold lines; rw [h1]
    · exfalso
      obtain ⟨o, ho, hst⟩ := (show _ ∧ _ from hR.inv.fac).2
      obtain ⟨o', ho', hst'⟩ := (show _ ∧ _ from hIns.inv.fac).2
      rw [h1, readNotes_append, ho] at ho'
      simp only [Option.bind_some, readNotes, Note.read] at ho'
      split at ho'
      · simp only [Option.bind_some] at ho'
        split at ho'
        · rename_i hany
          simp only [Option.bind_some, Option.some.injEq] at ho'
          obtain ⟨a, ha, hae⟩ := List.any_eq_true.1 hany
          obtain ⟨i, e0, he0, h0⟩ := hst.sub a ha
          obtain ⟨k, v, hf⟩ := hR.inv.full i e0 he0
          obtain ⟨e1, he1, hf1, _⟩ := (hIns.at_ i ⟨s.addr i, k, v⟩).2 ⟨e0, he0, hf, rfl⟩
          obtain ⟨a', ha', hae'⟩ := hst'.all i e1 he1
          rw [← ho'] at ha'
          obtain ⟨_, hn⟩ := List.mem_filter.1 ha'
          have q := (liftLt_ok P ok).equiv
          have h01 : incomparable (liftLt P less) e0 e1 = true :=
            Setup.eqv_same_rep (Setup.verbose L trk ok LS) (L.full_key hf) (L.full_key hf1)
          have : incomparable (liftLt P less) a' e' = true :=
            q.trans _ _ _ hae' (q.trans _ _ _ (q.symm _ _ h01) (q.trans _ _ _ (q.symm _ _ h0) hae))
          rw [this] at hn
          cases hn
        · cases ho'
      · cases ho'
    · right
      unfold lines
      rw [h1, List.map_append]
      simp [Note.map, show P.toKey e.rep = _ from hk, show P.toKey e'.rep = _ from hk']
  cases op with
  | make x src =>
    simp [Op.valid] at hv
    refine ⟨src, .inl ⟨x, rfl⟩, fin hv.2 ?_⟩
    simp only [Core.step, Core.make, bind, M.bind] at h2
    cases hi : Core.insert P (verboseFactory (liftLt P less)) trk src s with
    | exc s1 =>
      rw [hi] at h2
      dsimp only at h2
      cases h2
      rfl
    | ok a s1 => rw [hi] at h2; simp [Core.newObj, M.update, pure, M.ret] at h2
    | ub => rw [hi] at h2; cases h2
  | assignVal x src =>
    simp [Op.valid] at hv
    refine ⟨src, .inr ⟨x, rfl⟩, fin hv.2 ?_⟩
    simp only [Core.step, Core.assignVal, bind, M.bind] at h2
    cases hi : Core.insert P (verboseFactory (liftLt P less)) trk src s with
    | exc s1 =>
      rw [hi] at h2
      dsimp only at h2
      cases h2
      rfl
    | ok a s1 =>
      exfalso
      have hw : Weak (View P (fun i => (s1.fac.1.lookup i).bind fun e => P.toKey e.rep) s1.fac.2 s1.objs)
          (Core.assignHandle P (verboseFactory (liftLt P less)) trk x a >>= fun _ =>
            Core.handleDtor P (verboseFactory (liftLt P less)) trk a >>= fun _ => (pure .done : M _ (Out K V)))
          (fun _ _ => True) (fun _ => False) :=
        Weak.bind (view_assignHandle T (liftLt P less) trk x a) fun _ =>
          Weak.at fun s2 ⟨_, _, l', hv2, _⟩ => Weak.bind (R := fun _ _ => True)
            ((view_handleDtor (liftLt P less) T trk a).conseq (fun s' h => by rw [h]; exact hv2)
              (fun _ _ _ => trivial) fun _ h => h) fun _ => Weak.ret fun _ h => h
      have := hw s1 (.of P s1)
      rw [hi] at h2
      simp only [bind, M.bind] at this
      dsimp only at h2
      cases h3 : Core.assignHandle P (verboseFactory (liftLt P less)) trk x a s1 with
      | ok u s2 =>
        rw [h3] at h2 this
        dsimp only at h2 this
        cases h4 : Core.handleDtor P (verboseFactory (liftLt P less)) trk a s2 with
        | ok u s3 => rw [h4] at h2; cases h2
        | exc s3 => rw [h4] at this; exact this
        | ub => rw [h4] at h2; cases h2
      | exc s2 => rw [h3] at this; exact this
      | ub => rw [h3] at h2; cases h2
    | ub => rw [hi] at h2; cases h2
  | _ => cases hstep

end Shape

/-! ## What is stored, by the lines -/

/-- The equivalence of the keys of entries, if there are any.  (No code of its own: used in statements and
proofs.) -/
def optEqv (less : K → K → Bool) (a b : Option K) : Bool :=
  match a, b with
  | some k, some k' => incomparable less k k'
  | none, none => true
  | _, _ => false

theorem optEqv_lift (P : Policy K V Rep) (less : K → K → Bool) (e e' : Ent Rep) :
    optEqv less (P.toKey e.rep) (P.toKey e'.rep) = incomparable (liftLt P less) e e' := by
  unfold optEqv incomparable liftLt
  cases P.toKey e.rep <;> cases P.toKey e'.rep <;> rfl

/-- The lines `notes` say that the keys `o` are stored, and those are the keys of `pool`.  (No code of its own:
used in statements and proofs.) -/
structure Ledger (keq : K → K → Bool) (notes : List (Note K)) (o : List K) (pool : List (Bind K V)) : Prop where
  read : readNotes keq [] notes = some o
  apart : o.Pairwise fun a b => keq a b = false
  sub : ∀ k ∈ o, ∃ b ∈ pool, keq k b.key = true
  all : ∀ b ∈ pool, ∃ k ∈ o, keq k b.key = true

section Ledger
variable {P : Policy K V Rep} {sp : SrcSpec K V} {L : P.Lawful sp} {trk : Tracking} {less : K → K → Bool}
  {ok : OrderOk less} {LS : sp.Lawful (incomparable less)}

theorem ledger {fl : Nat → Bool} {s : St Rep (VFac Rep)} {t : SSt K V}
    (hS : Setup.Sim (Setup.verbose L trk ok LS) fl s t) {notes : List (Note K)}
    (hn : lines P s = notes.map (Note.map some)) : ∃ o, Ledger (incomparable less) notes o (t.pool trk) := by
  have hR := hS.rel
  have hpool : ∀ b, b ∈ t.pool trk ↔ ∃ i, (Setup.verbose L trk ok LS).At s i b := Setup.Rel.pool hR
  obtain ⟨o, ho, hst⟩ := (show _ ∧ _ from hR.inv.fac).2
  have h1 := readNotes_map (keq := optEqv less) (eqv := incomparable (liftLt P less))
    (f := fun e : Ent Rep => P.toKey e.rep) (o := []) (l := s.fac.2) fun n _ a _ => optEqv_lift P less a n.arg
  have h2 := readNotes_map (keq := optEqv less) (eqv := incomparable less)
    (f := fun k : K => some k) (o := []) (l := notes) fun n _ a _ => rfl
  have h3 : s.fac.2.map (Note.map fun e => P.toKey e.rep) = notes.map (Note.map some) := hn
  rw [h3, ho] at h1
  have h4 := h2.symm.trans h1
  cases hr : readNotes (incomparable less) [] notes with
  | none => rw [hr] at h4; cases h4
  | some ks =>
    rw [hr] at h4
    simp only [Option.map_some, Option.some.injEq] at h4
    have hap : (ks.map some).Pairwise fun a b => optEqv less a b = false := by
      rw [h4, List.pairwise_map]
      exact hst.apart.imp fun h => by rw [optEqv_lift]; exact h
    rw [List.pairwise_map] at hap
    refine ⟨ks, hr, hap, ?_, ?_⟩
    · intro k hk
      have : some k ∈ ks.map some := List.mem_map.2 ⟨k, hk, rfl⟩
      rw [h4] at this
      obtain ⟨a, ha, hak⟩ := List.mem_map.1 this
      obtain ⟨i, e, he, hae⟩ := hst.sub a ha
      obtain ⟨k', v, hf⟩ := hR.inv.full i e he
      refine ⟨⟨s.addr i, k', v⟩, (hpool _).2 ⟨i, e, he, hf, rfl⟩, ?_⟩
      rw [← optEqv_lift, hak, L.full_key hf] at hae
      exact hae
    · intro b hb
      obtain ⟨i, e, he, hf, _⟩ := (hpool b).1 hb
      obtain ⟨a, ha, hae⟩ := hst.all i e he
      have : P.toKey a.rep ∈ ks.map some := by
        rw [h4]; exact List.mem_map.2 ⟨a, ha, rfl⟩
      obtain ⟨k, hk, hka⟩ := List.mem_map.1 this
      refine ⟨k, hk, ?_⟩
      rw [← optEqv_lift, ← hka, L.full_key hf] at hae
      exact hae

end Ledger

/-! ## The lines of an operation -/

/-- The line for a key asked for, given the triples stored.  (No code of its own: used in statements and
proofs.) -/
def told (keq : K → K → Bool) (pool : List (Bind K V)) (k : K) : Note K :=
  if pool.any fun b => keq b.key k then .hit k else .new k

/-- The lines for a flyweight bound to `b` going away, given the state after that.  (No code of its own: used
in statements and proofs.) -/
def dropped (keq : K → K → Bool) (trk : Tracking) (t' : SSt K V) (b : Bind K V) : List (Note K) :=
  match trk with
  | .refcounted => if (t'.vars.any fun p => keq p.2.key b.key) then [] else [.del b.key]
  | .noTracking => []

/-- The lines of an operation that succeeds.  (No code of its own: used in statements and proofs.) -/
def LStep (trk : Tracking) (keq : K → K → Bool) (sp : SrcSpec K V) (t t' : SSt K V) (δ : List (Note K)) :
    Op K V → Prop
  | .make _ src => δ = [told keq (t.pool trk) (sp.key0 src)]
  | .assign x _ => ∃ b, (x, b) ∈ t.vars ∧ δ = dropped keq trk t' b
  | .destroy x => ∃ b, (x, b) ∈ t.vars ∧ δ = dropped keq trk t' b
  | .assignVal x src => ∃ b, (x, b) ∈ t.vars ∧ δ = told keq (t.pool trk) (sp.key0 src) :: dropped keq trk t' b
  | _ => δ = []

/-- The lines of an operation that throws.  (No code of its own: used in statements and proofs.) -/
def LThrow (trk : Tracking) (keq : K → K → Bool) (sp : SrcSpec K V) (t : SSt K V) (δ : List (Note K))
    (op : Op K V) : Prop :=
  ∃ src, ((∃ x, op = .make x src) ∨ ∃ x, op = .assignVal x src) ∧
    (δ = [] ∨ told keq (t.pool trk) (sp.key0 src) = .new (sp.key0 src) ∧
      δ = [.new (sp.key0 src), .del (sp.key0 src)])

/-- The lines of a program.  (No code of its own: used in statements and proofs.) -/
inductive LRun (trk : Tracking) (keq : K → K → Bool) (sp : SrcSpec K V) (hp : Nat → Nat) :
    SSt K V → List (Op K V) → List (Out K V) → List (Note K) → SSt K V → Prop
  | nil (t) : LRun trk keq sp hp t [] [] [] t
  | step {t op out t' δ ops outs δs t''} : Op.valid sp t.names op = true → out ≠ .threw →
      SStep trk keq sp hp t op out t' → LStep trk keq sp t t' δ op → LRun trk keq sp hp t' ops outs δs t'' →
      LRun trk keq sp hp t (op :: ops) (out :: outs) (δ ++ δs) t''
  | thrw {t op δ ops outs δs t''} : Op.valid sp t.names op = true →
      LThrow trk keq sp t δ op → LRun trk keq sp hp t ops outs δs t'' →
      LRun trk keq sp hp t (op :: ops) (.threw :: outs) (δ ++ δs) t''
  | skip {t op ops outs δs t''} : Op.valid sp t.names op = false →
      LRun trk keq sp hp t ops outs δs t'' →
      LRun trk keq sp hp t (op :: ops) (.skipped :: outs) δs t''

section Exact
variable {sp : SrcSpec K V} {trk : Tracking} {keq : K → K → Bool} (q : sp.Lawful keq)

include q in
theorem Ledger.any {notes : List (Note K)} {o : List K} {pool : List (Bind K V)}
    (h : Ledger keq notes o pool) (k : K) : o.any (keq · k) = pool.any fun b => keq b.key k := by
  rw [Bool.eq_iff_iff, List.any_eq_true, List.any_eq_true]
  constructor
  · rintro ⟨l, hl, hk⟩
    obtain ⟨b, hb, hlb⟩ := h.sub l hl
    exact ⟨b, hb, q.trans _ _ _ (q.symm _ _ hlb) hk⟩
  · rintro ⟨b, hb, hk⟩
    obtain ⟨l, hl, hlb⟩ := h.all b hb
    exact ⟨l, hl, q.trans _ _ _ hlb hk⟩

/-- The keys stored after a line for a key asked for. -/
theorem read_told {o : List K} {k : K} {n : Note K} (hn : n = .hit k ∨ n = .new k) {o' : List K}
    (h : n.read keq o = some o') :
    n = (if o.any (keq · k) then .hit k else .new k) ∧ ∀ l ∈ o, l ∈ o' := by
  rcases hn with rfl | rfl
  · simp only [Note.read] at h
    split at h
    · cases h
      rename_i ha
      exact ⟨by rw [if_pos ha], fun _ h => h⟩
    · cases h
  · simp only [Note.read] at h
    split at h
    · cases h
    · cases h
      rename_i ha
      exact ⟨by rw [if_neg ha], fun _ h => by simp [h]⟩

/-- After a line for a key leaving the store. -/
theorem read_del {o o' : List K} {k : K} (h : (Note.del k).read keq o = some o') : o'.any (keq · k) = false := by
  simp only [Note.read] at h
  split at h
  · cases h
    simp
  · cases h

include q in
theorem LStep.of {t t' : SSt K V} {notes δ : List (Note K)} {o o' : List K} {op : Op K V}
    (h : Ledger keq notes o (t.pool trk)) (h' : Ledger keq (notes ++ δ) o' (t'.pool trk))
    (hok : SOk trk keq t) (hv : op.valid sp t.names = true) (hs : Shape sp trk t op δ) :
    LStep trk keq sp t t' δ op := by
  have hr := h'.read
  rw [readNotes_append, h.read, Option.bind_some] at hr
  have live : trk = .refcounted → t'.pool trk = t'.vars.map Prod.snd := by rintro rfl; rfl
  have name : ∀ {x : Nat}, t.names.contains x = true → ∃ b, (x, b) ∈ t.vars := by
    intro x hx
    obtain ⟨⟨y, b⟩, hb, rfl⟩ := List.mem_map.1 (by simpa using hx : x ∈ t.names)
    exact ⟨b, hb⟩
  have stays : ∀ {o1 : List K} {x : Nat} {b : Bind K V}, (x, b) ∈ t.vars → (∀ l ∈ o, l ∈ o1) → o1 = o' →
      dropped keq trk t' b = [] := by
    intro o1 x b hb ho h1
    unfold dropped
    split
    · rename_i hp
      rw [if_pos]
      subst h1
      obtain ⟨l, hl, hlb⟩ := h.all b (hok.bound hb)
      have := Ledger.any q h' b.key
      rw [List.any_eq_true.2 ⟨l, ho l hl, hlb⟩] at this
      have hp' : t'.pool Tracking.refcounted = t'.vars.map Prod.snd := rfl
      rw [hp', List.any_map] at this
      exact this.symm
    · rfl
  have goes : ∀ {o1 : List K} {b : Bind K V}, trk = .refcounted → (Note.del b.key).read keq o1 = some o' →
      dropped keq trk t' b = [.del b.key] := by
    rintro o1 b rfl h1
    unfold dropped
    dsimp only
    rw [if_neg]
    have := Ledger.any q h' b.key
    rw [read_del h1] at this
    have hp' : t'.pool Tracking.refcounted = t'.vars.map Prod.snd := rfl
    rw [hp', List.any_map] at this
    intro h2
    have h3 : (t'.vars.any ((fun b' => keq b'.key b.key) ∘ Prod.snd)) = true := h2
    rw [h3] at this
    cases this
  have single : ∀ {n : Note K} {o1 : List K}, readNotes keq o1 [n] = some o' → n.read keq o1 = some o' := by
    intro n o1 h
    simp only [readNotes] at h
    cases hn : n.read keq o1 with
    | none => rw [hn] at h; cases h
    | some o2 => rw [hn] at h; exact h
  have isTold : ∀ k, (if o.any (keq · k) then Note.hit k else .new k) = told keq (t.pool trk) k := by
    intro k
    unfold told
    rw [Ledger.any q h]
  have gone : ∀ {x : Nat}, t.names.contains x = true →
      (δ = [] ∨ trk = .refcounted ∧ ∃ b, (x, b) ∈ t.vars ∧ δ = [.del b.key]) →
      ∃ b, (x, b) ∈ t.vars ∧ δ = dropped keq trk t' b := by
    rintro x hx (rfl | ⟨ht, b, hb, rfl⟩)
    · obtain ⟨b, hb⟩ := name hx
      exact ⟨b, hb, (stays hb (fun _ h => h) (Option.some.inj hr)).symm⟩
    · exact ⟨b, hb, (goes ht (single hr)).symm⟩
  cases op with
  | make x src =>
    have hn : ∃ n, δ = [n] ∧ (n = .hit (sp.key0 src) ∨ n = .new (sp.key0 src)) := by
      rcases hs with rfl | rfl
      · exact ⟨_, rfl, .inl rfl⟩
      · exact ⟨_, rfl, .inr rfl⟩
    obtain ⟨n, rfl, hn⟩ := hn
    show [n] = _
    rw [(read_told hn (single hr)).1, isTold]
  | assign x y =>
    simp [Op.valid] at hv
    exact gone (by simpa using hv.1) hs
  | destroy x => exact gone hv hs
  | assignVal x src =>
    simp [Op.valid] at hv
    obtain ⟨n, hn, rfl | ⟨ht, b, hb, rfl⟩⟩ := hs
    · obtain ⟨b, hb⟩ := name (x := x) (by simpa using hv.1)
      obtain ⟨h1, h2⟩ := read_told hn (single hr)
      exact ⟨b, hb, by rw [stays hb h2 rfl, h1, isTold]⟩
    · simp only [readNotes] at hr
      cases h1 : n.read keq o with
      | none => rw [h1] at hr; cases hr
      | some o1 =>
        rw [h1] at hr
        refine ⟨b, hb, ?_⟩
        rw [goes ht (single hr), (read_told hn h1).1, isTold]
  | _ => exact hs

end Exact

section Run
variable {P : Policy K V Rep} {sp : SrcSpec K V} {L : P.Lawful sp} {trk : Tracking} {less : K → K → Bool}
  {ok : OrderOk less} {LS : sp.Lawful (incomparable less)} (T : P.Tidy)

include T in
/-- One operation that succeeds. -/
theorem perform_lines {fl : Nat → Bool} {s s' : St Rep (VFac Rep)} {t : SSt K V}
    (hS : Setup.Sim (Setup.verbose L trk ok LS) fl s t) (hok : SOk trk (incomparable less) t) {notes : List (Note K)}
    (hn : lines P s = notes.map (Note.map some)) {hp : Nat → Nat} {op : Op K V}
    (hv : op.valid sp t.names = true) {out : Out K V}
    (h : (Setup.verbose L trk ok LS).perform hp op s = .ok out s') :
    ∃ t' δ, SStep trk (incomparable less) sp hp t op out t' ∧ Setup.Sim (Setup.verbose L trk ok LS) fl s' t' ∧
      LStep trk (incomparable less) sp t t' δ op ∧ lines P s' = (notes ++ δ).map (Note.map some) := by
  have hv' : op.valid sp (s.objs.map Prod.fst) = true := by rw [← hS.rel.vars.names]; exact hv
  obtain ⟨t', h1, h2⟩ := Setup.perform_ok hS hv' h
  obtain ⟨δ, hl, hs⟩ := step_shape T hS hv' h
  have hl' : lines P s' = (notes ++ δ).map (Note.map some) := by rw [hl, hn, List.map_append]
  obtain ⟨o, ho⟩ := ledger hS hn
  obtain ⟨o', ho'⟩ := ledger h2 hl'
  exact ⟨t', δ, h1, h2, LStep.of LS ho ho' hok hv hs, hl'⟩

include T in
/-- One operation that throws. -/
theorem perform_lines_exc {fl : Nat → Bool} {s s' : St Rep (VFac Rep)} {t : SSt K V}
    (hS : Setup.Sim (Setup.verbose L trk ok LS) fl s t) {notes : List (Note K)}
    (hn : lines P s = notes.map (Note.map some)) {hp : Nat → Nat} {op : Op K V}
    (hv : op.valid sp t.names = true)
    (h : (Setup.verbose L trk ok LS).perform hp op s = .exc s') :
    Setup.Sim (Setup.verbose L trk ok LS) fl s' t ∧ ∃ δ, LThrow trk (incomparable less) sp t δ op ∧
      lines P s' = (notes ++ δ).map (Note.map some) := by
  have hv' : op.valid sp (s.objs.map Prod.fst) = true := by rw [← hS.rel.vars.names]; exact hv
  obtain ⟨_, h2, _⟩ := Setup.perform_exc hS hv' h
  obtain ⟨src, hop, hl⟩ := step_shape_exc T hS hv' h
  refine ⟨h2, ?_⟩
  rcases hl with hl | hl
  · exact ⟨[], ⟨src, hop, .inl rfl⟩, by rw [hl, hn]; simp⟩
  · have hl' : lines P s' = (notes ++ [Note.new (sp.key0 src), Note.del (sp.key0 src)]).map (Note.map some) := by
      rw [hl, hn, List.map_append]; rfl
    refine ⟨_, ⟨src, hop, .inr ⟨?_, rfl⟩⟩, hl'⟩
    obtain ⟨o, ho⟩ := ledger hS hn
    obtain ⟨o', ho'⟩ := ledger h2 hl'
    have hr := ho'.read
    rw [readNotes_append, ho.read] at hr
    simp only [Option.bind_some, readNotes] at hr
    cases h1 : (Note.new (sp.key0 src)).read (incomparable less) o with
    | none => rw [h1] at hr; cases hr
    | some o1 =>
      have := (read_told (.inr rfl) h1).1
      rw [Ledger.any LS ho] at this
      exact this.symm

include T in
/-- A program. -/
theorem exec_lines (hp : Nat → Nat) {fl : Nat → Bool} (ops : List (Op K V)) {s s' : St Rep (VFac Rep)} {t : SSt K V}
    (hS : Setup.Sim (Setup.verbose L trk ok LS) fl s t) (hok : SOk trk (incomparable less) t) {notes : List (Note K)}
    (hn : lines P s = notes.map (Note.map some)) {outs : List (Out K V)}
    (h : (Setup.verbose L trk ok LS).resume hp s ops = some (outs, s')) :
    ∃ t' δ, LRun trk (incomparable less) sp hp t ops outs δ t' ∧ Setup.Sim (Setup.verbose L trk ok LS) fl s' t' ∧
      SOk trk (incomparable less) t' ∧ lines P s' = (notes ++ δ).map (Note.map some) := by
  induction ops generalizing s t notes outs with
  | nil => cases h; exact ⟨t, [], .nil t, hS, hok, by simpa using hn⟩
  | cons op ops ih =>
    have h' : Core.exec P (verboseFactory (liftLt P less)) trk hp sp (op :: ops) s = some (outs, s') := h
    unfold Core.exec at h'
    have hnm : s.objs.map Prod.fst = t.names := hS.rel.vars.names.symm
    rw [hnm] at h'
    by_cases hv : op.valid sp t.names = true
    · rw [if_pos hv] at h'
      have hv' : op.valid sp (s.objs.map Prod.fst) = true := by rw [hnm]; exact hv
      cases hm : Core.step P (verboseFactory (liftLt P less)) trk hp op s with
      | ok out s1 =>
        rw [hm] at h'
        obtain ⟨t1, δ, h1, h2, h3, h4⟩ := perform_lines T hS hok hn hv hm
        simp only [Option.map_eq_some_iff] at h'
        obtain ⟨⟨outs1, s2⟩, g1, g2⟩ := h'
        cases g2
        obtain ⟨t', δs, g3, g4, g5, g6⟩ := ih h2 (h1.ok LS hok hv) h4 g1
        have hne : out ≠ .threw := by
          rcases Setup.perform_cases hS hp hv' with ⟨o, s3, _, k1, k2, _⟩ | ⟨s3, k1, _⟩
          · have k3 : Core.step P (verboseFactory (liftLt P less)) trk hp op s = .ok o s3 := k1
            rw [hm] at k3; cases k3; exact k2
          · have k3 : Core.step P (verboseFactory (liftLt P less)) trk hp op s = .exc s3 := k1
            rw [hm] at k3; cases k3
        exact ⟨t', δ ++ δs, .step hv hne h1 h3 g3, g4, g5, by rw [g6]; simp⟩
      | exc s1 =>
        rw [hm] at h'
        obtain ⟨h2, δ, h3, h4⟩ := perform_lines_exc T hS hn hv hm
        simp only [Option.map_eq_some_iff] at h'
        obtain ⟨⟨outs1, s2⟩, g1, g2⟩ := h'
        cases g2
        obtain ⟨t', δs, g3, g4, g5, g6⟩ := ih h2 hok h4 g1
        exact ⟨t', δ ++ δs, .thrw hv h3 g3, g4, g5, by rw [g6]; simp⟩
      | ub => rw [hm] at h'; cases h'
    · rw [if_neg hv] at h'
      simp only [Option.map_eq_some_iff] at h'
      obtain ⟨⟨outs1, s2⟩, g1, g2⟩ := h'
      cases g2
      obtain ⟨t', δs, g3, g4, g5, g6⟩ := ih hS hok hn g1
      exact ⟨t', δs, .skip (by simpa using hv) g3, g4, g5, g6⟩

include T in
/-- A program from the start. -/
theorem run_lines {hp : Nat → Nat} {fl : Nat → Bool} {alloc : Nat → List Nat → Nat} (hal : ∀ n l, alloc n l ∉ l)
    {ops : List (Op K V)} {outs : List (Out K V)} {s : St Rep (VFac Rep)}
    (h : (Setup.verbose L trk ok LS).run hp fl alloc ops = some (outs, s)) :
    ∃ t notes, LRun trk (incomparable less) sp hp SSt.start ops outs notes t ∧
      Setup.Sim (Setup.verbose L trk ok LS) fl s t ∧ SOk trk (incomparable less) t ∧
      lines P s = notes.map (Note.map some) := by
  obtain ⟨t, δ, h1, h2, h3, h4⟩ := exec_lines T hp ops (Setup.sim_start (Setup.verbose L trk ok LS) fl hal)
    (SOk.start _ _) (notes := []) rfl h
  exact ⟨t, δ, h1, h2, h3, by simpa using h4⟩

end Run
end Verbose
end Verif
