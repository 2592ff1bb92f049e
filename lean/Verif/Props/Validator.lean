import Verif.Front.DenoteLemmas
import Verif.Props.RoundTrip

/-!
# Properties C28-C32: the validator, and the wire types of validated schemas

`Schemas.Loaded` is what the loader guarantees about its result (see `Verif.Props.Loader`). `Schemas.WellFormed` is the
specification, `Verif.Spec.Schema`.
-/

namespace Typical

/-! ### Examples -/

/-- An identifier already in snake case. -/
def ident (s : String) : Identifier := ⟨s.toList, s.toList⟩

def exampleField (name : String) (rule : Rule) (t : TypeVariant) (index : Nat) : Field :=
  ⟨⟨0, 0⟩, [], rule, ident name, ⟨⟨0, 0⟩, t⟩, index⟩

/-- `main.t`: imports `lib/geo.t` as `g`. Struct `shape` with the fields `name: String = 0`, `points: [[g.point]] = 2`,
`optional kind: kind = 1`, deleted index 3; choice `kind` with fields `a = 0`, `asymmetric b: U64 = 1`. -/
def exampleMain : Schema :=
  ⟨[], [(ident "g", ⟨⟨0, 0⟩, "lib/geo.t".toList, some ⟨[ident "lib", ident "geo"]⟩⟩)],
    [⟨⟨0, 0⟩, [], .struct, ident "shape",
      [exampleField "name" .required .string 0,
       exampleField "points" .required (.array ⟨0, 0⟩ (.array ⟨0, 0⟩ (.custom (some (ident "g")) (ident "point")))) 2,
       exampleField "kind" .optional (.custom none (ident "kind")) 1], [3]⟩,
     ⟨⟨0, 0⟩, [], .choice, ident "kind",
      [exampleField "a" .required .unit 0, exampleField "b" .asymmetric .u64 1], []⟩]⟩

/-- `lib/geo.t`: struct `point` with fields `x: F64 = 0`, `y: F64 = 1`. -/
def exampleGeo : Schema :=
  ⟨[], [], [⟨⟨0, 0⟩, [], .struct, ident "point",
    [exampleField "x" .required .f64 0, exampleField "y" .required .f64 1], []⟩]⟩

def exampleSchemas : Schemas := [(⟨[ident "lib", ident "geo"]⟩, exampleGeo), (⟨[ident "main"]⟩, exampleMain)]

theorem exampleSchemas_loaded : exampleSchemas.Loaded := by
  constructor <;> decide +kernel

/-- `a` contains `b` in an array, `b` contains `a`. -/
def exampleCyclic : Schemas :=
  [(⟨[ident "main"]⟩, ⟨[], [],
    [⟨⟨0, 0⟩, [], .struct, ident "a", [exampleField "x" .optional (.array ⟨0, 0⟩ (.custom none (ident "b"))) 0], []⟩,
     ⟨⟨0, 0⟩, [], .struct, ident "b", [exampleField "x" .optional (.custom none (ident "a")) 0], []⟩]⟩)]

theorem exampleCyclic_loaded : exampleCyclic.Loaded := by
  constructor <;> decide +kernel

/-! ### C28 -/

/-- **C28.** Validation accepts exactly the well-formed schemas. -/
theorem C28_accepts_exactly_well_formed (S : Schemas) (hl : S.Loaded) : validate S = .ok [] ↔ S.WellFormed := by
  obtain ⟨es, h1, h2, -⟩ := validate_spec hl
  rw [h1, ← h2, Except.ok.injEq]

/-- **C28 (always returns).** Validation always ends, without a failed `unwrap`. -/
theorem C28_returns (S : Schemas) (hl : S.Loaded) : ∃ errors, validate S = .ok errors := by
  obtain ⟨es, h1, -⟩ := validate_spec hl
  exact ⟨es, h1⟩

example : validate exampleSchemas = .ok [] := by decide +kernel
example : exampleSchemas.WellFormed :=
  (C28_accepts_exactly_well_formed _ exampleSchemas_loaded).mp (by decide +kernel)
example : validate exampleCyclic = .ok [.cycle [([['m', 'a', 'i', 'n']], ['a']), ([['m', 'a', 'i', 'n']], ['b']),
    ([['m', 'a', 'i', 'n']], ['a'])]] := by decide +kernel
example : ¬ exampleCyclic.WellFormed := fun h =>
  absurd ((C28_accepts_exactly_well_formed _ exampleCyclic_loaded).mpr h) (by decide +kernel)

/-! ### C29 -/

/-- **C29 (sound).** For schemas which are otherwise valid, each error reported is a cycle: a sequence of declared types, each
containing the next, whose last element occurs before. -/
theorem C29_sound (S : Schemas) (hl : S.Loaded)
    (names : ∀ e ∈ S, (e.2.declarations.map (fun d => d.name.snakeCase)).Nodup)
    (declarations : ∀ e ∈ S, ∀ d ∈ e.2.declarations, S.DeclarationOk e.1 e.2 d)
    (errors : List VErr) (h : validate S = .ok errors) :
    ∀ e ∈ errors, ∃ path k, e = .cycle (path ++ [k]) ∧ IsWalk S.Contains (path ++ [k]) ∧ k ∈ path := by
  obtain ⟨es, h1, -, h3⟩ := validate_spec hl
  rw [h1, Except.ok.injEq] at h
  subst h
  intro e he
  obtain ⟨p, k, a, b, c, -⟩ := h3 names declarations e he
  exact ⟨p, k, a, b, c⟩

/-- **C29 (complete).** For schemas which are otherwise valid, an error is reported if and only if some type contains itself
(directly, or through other types and arrays). -/
theorem C29_complete (S : Schemas) (hl : S.Loaded)
    (names : ∀ e ∈ S, (e.2.declarations.map (fun d => d.name.snakeCase)).Nodup)
    (declarations : ∀ e ∈ S, ∀ d ∈ e.2.declarations, S.DeclarationOk e.1 e.2 d)
    (errors : List VErr) (h : validate S = .ok errors) :
    errors ≠ [] ↔ ∃ k, Relation.TransGen S.Contains k k := by
  obtain ⟨es, h1, h2, h3⟩ := validate_spec hl
  rw [h1, Except.ok.injEq] at h
  subst h
  constructor
  · intro hne
    cases es with
    | nil => exact absurd rfl hne
    | cons e l =>
      obtain ⟨p, k, -, -, -, c⟩ := h3 names declarations e List.mem_cons_self
      exact ⟨k, c⟩
  · rintro ⟨k, hk⟩ he
    exact (h2.mp he).acyclic k hk

/-- The premises of `C29_sound` and `C29_complete` hold for schemas with a cycle. -/
example : ∃ k, Relation.TransGen exampleCyclic.Contains k k := by
  refine (C29_complete exampleCyclic exampleCyclic_loaded (by decide +kernel) ?_ _
    (by decide +kernel : validate exampleCyclic = .ok [.cycle [([['m', 'a', 'i', 'n']], ['a']),
      ([['m', 'a', 'i', 'n']], ['b']), ([['m', 'a', 'i', 'n']], ['a'])]])).mp (by simp)
  exact (checkSchemas_spec exampleCyclic_loaded exampleCyclic (fun _ h => h)).elim
    (fun es h => (h.2.mp (Except.ok.inj (h.1.symm.trans (by decide +kernel)))).2)

/-! ### C30, C31 -/

/-- **C30.** Each declaration of validated schemas has exactly one wire type, and it is well-formed: references can
be unfolded completely; indices are distinct and at most `2^62 - 1` at all depths. -/
theorem C30_wire_type (S : Schemas) (hl : S.Loaded) (hv : validate S = .ok []) (k : TypeKey) (ns : Namespace)
    (s : Schema) (d : Declaration) (hd : S.Declares k ns s d) :
    ∃ c, S.Denotes k c ∧ c.WF ∧ ∀ c', S.Denotes k c' → c' = c := by
  have hw := (C28_accepts_exactly_well_formed S hl).mp hv
  obtain ⟨c, h1, h2⟩ := denotes_exists hl hw (contains_acc hl hw k) hd
  exact ⟨c, h1, h2, fun c' h' => Denotes.unique hl hw.names h' h1⟩

/-- **C30 (codec).** So the code generated for each declaration of validated schemas round-trips all messages. -/
theorem C30_codec (S : Schemas) (hl : S.Loaded) (hv : validate S = .ok []) (k : TypeKey) (c : CTy)
    (hc : S.Denotes k c) (m : c.Msg .out) (lim : Nat) (hlim : lim < 2 ^ 64) (h : 8 * size c m ≤ lim) :
    ∃ bs, serialize c m = some bs ∧ deserialize lim c bs = .ok (c.toIn m) := by
  have hd : ∃ ns s d, S.Declares k ns s d := by
    cases hc with
    | struct h1 _ _ => exact ⟨_, _, _, h1⟩
    | choice h1 _ _ => exact ⟨_, _, _, h1⟩
  obtain ⟨ns, s, d, hd⟩ := hd
  obtain ⟨c', -, hw, hu⟩ := C30_wire_type S hl hv k ns s d hd
  rw [← hu c hc] at hw
  exact C06_round_trip c hw m lim hlim h

/-- The wire type of `shape`. -/
example : exampleSchemas.Denotes ([['m', 'a', 'i', 'n']], ['s', 'h', 'a', 'p', 'e'])
    (.struct (.cons 0 .required (.comp .string) (.cons 2 .required (.comp (.array (.array (.struct
      (.cons 0 .required (.scalar .f64) (.cons 1 .required (.scalar .f64) .nil))))))
      (.cons 1 .optional (.comp (.choice (.cons 0 .required .unit (.cons 1 .asymmetric (.scalar .u64) .nil)))) .nil)))) := by
  refine .struct (ns := ⟨[ident "main"]⟩) (s := exampleMain) (d := exampleMain.declarations[0])
    ⟨.tail _ (.head _), .head _, by decide +kernel⟩ rfl
    (.cons .string (.cons (.array (.array (.custom (k := ([['l', 'i', 'b'], ['g', 'e', 'o']], ['p', 'o', 'i', 'n', 't']))
      ?_ ?_))) (.cons (.custom (k := ([['m', 'a', 'i', 'n']], ['k', 'i', 'n', 'd'])) ?_ ?_) .nil)))
  · exact ⟨_, .head _, rfl, _, rfl, by decide +kernel⟩
  · exact .struct (ns := ⟨[ident "lib", ident "geo"]⟩) (s := exampleGeo) (d := exampleGeo.declarations[0])
      ⟨.head _, .head _, by decide +kernel⟩ rfl (.cons .f64 (.cons .f64 .nil))
  · show _ = _; decide +kernel
  · exact .choice (ns := ⟨[ident "main"]⟩) (s := exampleMain) (d := exampleMain.declarations[1])
      ⟨.tail _ (.head _), .tail _ (.head _), by decide +kernel⟩ rfl (.cons .unit (.cons .u64 .nil))

/-- **C31.** Schemas which differ only in names, comments, positions and deleted indices have the same wire types. -/
theorem C31_names_do_not_matter (S S' : Schemas) (hl : S.Loaded) (hv : validate S = .ok [])
    (R : TypeKey → TypeKey → Prop) (hR : SameUpToNames S S' R) (k k' : TypeKey) (h : R k k') (c : CTy)
    (hc : S.Denotes k c) : S'.Denotes k' c :=
  Denotes.rename hl ((C28_accepts_exactly_well_formed S hl).mp hv).names hR h hc

/-- **C31 (renaming).** Renaming types, fields, imports and files by arbitrary functions (which map equal names to equal
names), with arbitrary changes of comments, positions and deleted indices: if the result is accepted too, corresponding
declarations have the same wire type. -/
theorem C31_renaming (S : Schemas) (hl : S.Loaded) (hv : validate S = .ok []) (ρ : Renaming) (hρ : ρ.Respects)
    (hl' : (ρ.schemas S).Loaded) (hv' : validate (ρ.schemas S) = .ok []) (ns : Namespace) (s : Schema)
    (d : Declaration) (hs : (ns, s) ∈ S) (hd : d ∈ s.declarations) (c c' : CTy)
    (hc : S.Denotes (ns.key, d.name.snakeCase) c)
    (hc' : (ρ.schemas S).Denotes ((ρ.namespace_ ns).key, (ρ.typeName d.name).snakeCase) c') : c = c' := by
  have hw := (C28_accepts_exactly_well_formed S hl).mp hv
  have hw' := (C28_accepts_exactly_well_formed _ hl').mp hv'
  have := Denotes.rename hl hw.names (sameUpToNames_rename hw hρ) ⟨ns, s, d, ⟨hs, hd, rfl⟩, rfl⟩ hc
  exact Denotes.unique hl' hw'.names this hc'

/-- A renaming which changes all names and comments. -/
def exampleRenaming : Renaming where
  typeName i := ⟨'t' :: i.original, 't' :: i.snakeCase⟩
  importName i := ⟨'i' :: i.original, 'i' :: i.snakeCase⟩
  namespace_ n := ⟨ident "top" :: n.components⟩
  fieldName i := ⟨'f' :: i.original, 'f' :: i.snakeCase⟩
  comment _ := [['h', 'i']]
  path p := p ++ p
  range r := ⟨r.start + 1, r.stop + 2⟩
  deleted l := l

example : exampleRenaming.Respects ∧ (exampleRenaming.schemas exampleSchemas).Loaded ∧
    validate (exampleRenaming.schemas exampleSchemas) = .ok [] := by
  refine ⟨⟨?_, ?_, ?_⟩, ⟨by decide +kernel, by decide +kernel, by decide +kernel, by decide +kernel⟩, by decide +kernel⟩
  · intro a b h; simp only [exampleRenaming, h]
  · intro a b h; simp only [exampleRenaming, h]
  · intro a b h
    simp only [exampleRenaming, Namespace.key, List.map_cons] at h ⊢
    rw [h]

/-! ### C32 -/

/-- **C32.** In validated schemas all indices below that of a field are used or deleted, and indices are smaller than the
number of used and deleted ones. -/
theorem C32_no_gaps (S : Schemas) (hl : S.Loaded) (hv : validate S = .ok []) (ns : Namespace) (s : Schema)
    (hs : (ns, s) ∈ S) (d : Declaration) (hd : d ∈ s.declarations) (f : Field) (hf : f ∈ d.fields) :
    f.index < d.fields.length + d.deleted.length ∧
      ∀ i < f.index, (∃ g ∈ d.fields, g.index = i) ∨ i ∈ d.deleted := by
  have ok := ((C28_accepts_exactly_well_formed S hl).mp hv).declarations _ hs _ hd
  have hm : ∀ i, i ∈ d.fields.map (fun f => f.index) ++ d.deleted ↔ i < d.fields.length + d.deleted.length := by
    intro i; rw [ok.indices.mem_iff, List.mem_range]
  have hlt := (hm f.index).mp (List.mem_append_left _ (List.mem_map.mpr ⟨f, hf, rfl⟩))
  refine ⟨hlt, ?_⟩
  intro i hi
  rcases List.mem_append.mp ((hm i).mpr (Nat.lt_trans hi hlt)) with h | h
  · exact .inl (List.mem_map.mp h)
  · exact .inr h

/-- **C32 (witness).** The README says that indices "aren't required to be consecutive", but a single field with index 1 is
rejected; with index 0 marked as deleted it is accepted. -/
theorem C32_sparse_witness :
    validate [(⟨[ident "main"]⟩, ⟨[], [],
      [⟨⟨0, 0⟩, [], .struct, ident "a", [exampleField "x" .required .u64 1], []⟩]⟩)] = .ok [.indexGap ⟨[ident "main"]⟩ ⟨0, 0⟩ 0] ∧
    validate [(⟨[ident "main"]⟩, ⟨[], [],
      [⟨⟨0, 0⟩, [], .struct, ident "a", [exampleField "x" .required .u64 1], [0]⟩]⟩)] = .ok [] := by
  constructor <;> decide +kernel

end Typical
