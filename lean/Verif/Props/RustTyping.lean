import Verif.Gen.TypeSize
import Verif.Gen.DevSem
import Verif.Props.RustTypes

/-!
# Property C86: the generated Rust functions type-check

For every schema without errors (and without the collisions of names of C51-C53 and C64), the definitions of types are well-formed, and the body of each
generated function has the type which its signature says, by the rules of `Verif.Spec.RustTyping`.
-/

namespace Typical

open Gen

/-- The three types of a declaration. -/
def outType (T : CharTable) (ns : Namespace) (d : Declaration) : TypeId := (ns.components.map rustSnake, rustPascal T d.name (some .out))
def inType (T : CharTable) (ns : Namespace) (d : Declaration) : TypeId := (ns.components.map rustSnake, rustPascal T d.name (some .in_))
def atlasType (T : CharTable) (ns : Namespace) (d : Declaration) : TypeId := (ns.components.map rustSnake, rustPascal T d.name (some .atlas))

/-- **C86 (types).** Each declaration has its three types in the generated program. Their members or variants have distinct names, and the types of those are
types which exist. -/
theorem C86_types {T : CharTable} {S : Schemas} (hA : Accepted T S) {k : List Str × Str} {ns : Namespace} {s : Schema} {d : Declaration} (hd : S.Declares k ns s d)
    {t : TypeId} (ht : t = outType T ns d ∨ t = inType T ns d ∨ t = atlasType T ns d) : ∃ it, items T S t = some it ∧ it.name = t.2 ∧ ItemOk (items T S) t.1 it := by
  rcases ht with rfl | rfl | rfl
  · exact Gen.decl_items hA.loaded hA.wellFormed hA.names hd .out
  · exact Gen.decl_items hA.loaded hA.wellFormed hA.names hd .in_
  · exact Gen.decl_items hA.loaded hA.wellFormed hA.names hd .atlas

/-- **C86 (sizes).** Each of these types has a finite size: following what is inside its values, and not behind a pointer, one does not get back to it, and not on
forever. -/
theorem C86_finite {T : CharTable} {S : Schemas} (hA : Accepted T S) {k : List Str × Str} {ns : Namespace} {s : Schema} {d : Declaration} (hd : S.Declares k ns s d)
    {t : TypeId} (ht : t = outType T ns d ∨ t = inType T ns d ∨ t = atlasType T ns d) :
    ¬ Relation.TransGen (items T S).Inline t t ∧ ¬ ∃ l : Nat → TypeId, l 0 = t ∧ ∀ n, (items T S).Inline (l n) (l (n + 1)) := by
  have h : Acc (fun a b => (items T S).Inline b a) t := by
    rcases ht with rfl | rfl | rfl
    · exact inline_acc hA.loaded hA.wellFormed hA.names (contains_acc hA.loaded hA.wellFormed k) hd .out
    · exact inline_acc hA.loaded hA.wellFormed hA.names (contains_acc hA.loaded hA.wellFormed k) hd .in_
    · exact inline_acc hA.loaded hA.wellFormed hA.names (contains_acc hA.loaded hA.wellFormed k) hd .atlas
  refine ⟨not_transGen_of_acc h, ?_⟩
  clear ht hd
  induction h with
  | intro t _ ih =>
    rintro ⟨l, h1, h2⟩
    exact ih (l 1) (h1 ▸ h2 0) ⟨fun n => l (n + 1), rfl, fun n => h2 (n + 1)⟩

/-- **C86 (signatures).** These are the types in the signatures of the functions of the declaration. -/
theorem C86_impls {T : CharTable} {S : Schemas} (hA : Accepted T S) {k : List Str × Str} {ns : Namespace} {s : Schema} {d : Declaration} (hd : S.Declares k ns s d) :
    impls T S (outType T ns d) (inType T ns d) (atlasType T ns d) := impls_of_declares hA.loaded hA.names hd

/-- The type whose name is used to find the function: for `from`, it is the type of the parameter. -/
def keyType (o i a : TypeId) : Fn → TypeId
  | .atlas => o
  | .serializeWithAtlas => o
  | .from_ => o
  | .deserializeFromReaderRef => i
  | .size => a

/-- **C86.** Each function of each declaration is in the generated program, and its body has the type which its signature says. -/
theorem C86_functions {T : CharTable} {S : Schemas} (hA : Accepted T S) {k : List Str × Str} {ns : Namespace} {s : Schema} {d : Declaration} (hd : S.Declares k ns s d)
    (f : Fn) : ∃ e, program T S (keyType (outType T ns d) (inType T ns d) (atlasType T ns d) f) f = some e ∧
      FnOk (items T S) (impls T S) (ns.components.map rustSnake) (selfType (outType T ns d) (inType T ns d) (atlasType T ns d) f)
        (paramTypes (outType T ns d) (inType T ns d) (atlasType T ns d) f) (resultType (outType T ns d) (inType T ns d) (atlasType T ns d) f) e := by
  obtain ⟨e, h1, h2⟩ := Gen.decl_ok hA.loaded hA.wellFormed hA.names hd f
  exact ⟨e, by cases f <;> exact h1, h2⟩

/-- **C86 (traits).** So do the functions of the traits: `fn size(&self) -> usize` and `fn serialize<T: Write>(&self, mut writer: T) -> Result<()>` for the type of
messages to be written, `fn deserialize<T: BufRead>(mut reader: T) -> Result<Self>` for the type of messages which are read. -/
theorem C86_traits {T : CharTable} {S : Schemas} (hA : Accepted T S) {k : List Str × Str} {ns : Namespace} {s : Schema} {d : Declaration} (hd : S.Declares k ns s d) :
    FnOk (items T S) (impls T S) (ns.components.map rustSnake) (outType T ns d) [(.self, .ref (.named (outType T ns d)), false)] .usize traitSize ∧
    FnOk (items T S) (impls T S) (ns.components.map rustSnake) (outType T ns d)
      [(.self, .ref (.named (outType T ns d)), false), (.writer, .sink, true)] (.result .unit) traitSerialize ∧
    FnOk (items T S) (impls T S) (ns.components.map rustSnake) (inType T ns d) [(.reader, .source, true)] (.result (.named (inType T ns d))) traitDeserialize := by
  have h := C86_impls hA hd
  refine ⟨.size (.atlas (.var rfl) (.ref .refl) h) .refl h, ?_, .deserializeSelf rfl h (.reader (.refMut (.var rfl)) .source .nil)⟩
  exact .letIn (.atlas (.var rfl) (.ref .refl) h) (.serializeWithAtlas (.var rfl) (.ref .refl) h (.writer (.refMut (.var rfl)) .sink
    (.type (.ref (.var rfl)) .refl .nil)))

/-! ### The text -/

/-- The text has an `impl` block with the function `f`, with its signature and the body `e`. -/
def HasSignedFn (o i a : Str) (f : Fn) (e : Ex) (ind : Nat) (text : Str) : Prop :=
  ∃ inner, blockText "    ".toList ind (implText o i a f) inner <:+: text ∧
    blockText "    ".toList (ind + 1) (signatureText (ind + 1) o i a f) (e.print.lines (ind + 2)) <:+: inner

theorem HasSignedFn.mono {o i a : Str} {f : Fn} {e : Ex} {ind : Nat} {t u : Str} (h : t <:+: u) : HasSignedFn o i a f e ind t → HasSignedFn o i a f e ind u
  | ⟨inner, h1, h2⟩ => ⟨inner, h1.trans h, h2⟩

theorem newline_0 : "pub fn serialize_with_atlas<T: ::std::io::Write>(\n".toList = "pub fn serialize_with_atlas<T: ::std::io::Write>(".toList ++ "\n".toList := by decide +kernel
theorem newline_1 : "&self,\n".toList = "&self,".toList ++ "\n".toList := rfl
theorem newline_2 : "writer: &mut T,\n".toList = "writer: &mut T,".toList ++ "\n".toList := rfl
theorem newline_3 : ",\n".toList = ",".toList ++ "\n".toList := rfl
theorem newline_4 : "pub fn deserialize_from_reader_ref<T: ::std::io::BufRead>(\n".toList =
  "pub fn deserialize_from_reader_ref<T: ::std::io::BufRead>(".toList ++ "\n".toList := by decide +kernel
theorem newline_5 : "reader: &mut T,\n".toList = "reader: &mut T,".toList ++ "\n".toList := rfl

theorem sig_atlas (ind : Nat) (o i a : Str) : signatureText ind o i a .atlas = "pub fn atlas(&self) -> ".toList ++ a := rfl
theorem sig_serialize (ind : Nat) (o i a : Str) : signatureText ind o i a .serializeWithAtlas = "pub fn serialize_with_atlas<T: ::std::io::Write>(\n".toList ++
      indent (ind + 1) ++ "&self,\n".toList ++ indent (ind + 1) ++ "writer: &mut T,\n".toList ++ indent (ind + 1) ++ "atlas: &".toList ++ a ++ ",\n".toList ++
      indent ind ++ ") -> ::std::io::Result<()>".toList := rfl
theorem sig_from (ind : Nat) (o i a : Str) : signatureText ind o i a .from_ = "fn from(message: ".toList ++ o ++ ") -> Self".toList := rfl
theorem sig_deserialize (ind : Nat) (o i a : Str) : signatureText ind o i a .deserializeFromReaderRef =
      "pub fn deserialize_from_reader_ref<T: ::std::io::BufRead>(\n".toList ++
      indent (ind + 1) ++ "reader: &mut T,\n".toList ++ indent ind ++ ") -> ::std::io::Result<Self>".toList := rfl
theorem sig_size (ind : Nat) (o i a : Str) : signatureText ind o i a .size = "pub fn size(&self) -> usize".toList := rfl
theorem impl_atlas (o i a : Str) : implText o i a .atlas = "impl ".toList ++ o := rfl
theorem impl_serialize (o i a : Str) : implText o i a .serializeWithAtlas = "impl ".toList ++ o := rfl
theorem impl_from (o i a : Str) : implText o i a .from_ = "impl From<".toList ++ o ++ "> for ".toList ++ i := rfl
theorem impl_deserialize (o i a : Str) : implText o i a .deserializeFromReaderRef = "impl ".toList ++ i := rfl
theorem impl_size (o i a : Str) : implText o i a .size = "impl ".toList ++ a := rfl

theorem signed_of {c : DeclCode} {f : Fn} {ind : Nat} (sig before after : Str) (hsig : sig = signatureText (ind + 1) (c.name .out) (c.name .in_) (c.name .atlas) f)
    (h : blockText "    ".toList ind (implText (c.name .out) (c.name .in_) (c.name .atlas) f)
      (before ++ (line (ind + 1) (sig ++ " {".toList) ++ (c.body f).print.lines (ind + 2) ++ line (ind + 1) "}".toList) ++ after) <:+: c.text ind) :
    HasSignedFn (c.name .out) (c.name .in_) (c.name .atlas) f (c.body f) ind (c.text ind) := by
  subst hsig
  exact ⟨_, h, block_infix _ _ _ _ _⟩

theorem declCode_signed (c : DeclCode) (f : Fn) (ind : Nat) : HasSignedFn (c.name .out) (c.name .in_) (c.name .atlas) f (c.body f) ind (c.text ind) := by
  cases f
  · refine signed_of ("pub fn atlas(&self) -> ".toList ++ c.name .atlas) [] ("\n".toList ++
      line (ind + 1) "pub fn serialize_with_atlas<T: ::std::io::Write>(".toList ++
      line (ind + 2) "&self,".toList ++
      line (ind + 2) "writer: &mut T,".toList ++
      line (ind + 2) ("atlas: &".toList ++ c.name .atlas ++ ",".toList) ++
      line (ind + 1) ") -> ::std::io::Result<()> {".toList ++
      c.serializeWithAtlas.print.lines (ind + 2) ++
      line (ind + 1) "}".toList) (by rw [sig_atlas]) ?_
    refine impl_infix 3 _ ?_ rfl
    simp only [List.getElem?_cons_succ, List.getElem?_cons_zero, Option.some.injEq, blockText_line, List.append_assoc, List.nil_append, impl_atlas, DeclCode.body]
  · refine signed_of ("pub fn serialize_with_atlas<T: ::std::io::Write>(".toList ++
      ("\n".toList ++ line (ind + 2) "&self,".toList ++
      line (ind + 2) "writer: &mut T,".toList ++
      line (ind + 2) ("atlas: &".toList ++ c.name .atlas ++ ",".toList) ++ indent (ind + 1) ++
      ") -> ::std::io::Result<()>".toList)) (line (ind + 1) ("pub fn atlas(&self) -> ".toList ++ c.name .atlas ++ " {".toList) ++
      c.atlas.print.lines (ind + 2) ++
      line (ind + 1) "}".toList ++
      "\n".toList) [] (by rw [sig_serialize, newline_0, newline_1, newline_2, newline_3]; simp only [line, List.append_assoc]) ?_
    refine impl_infix 3 _ ?_ rfl
    simp only [List.getElem?_cons_succ, List.getElem?_cons_zero, Option.some.injEq, blockText_line, List.append_assoc, List.nil_append, List.append_nil, line, brace_0,
      impl_serialize, DeclCode.body]
  · refine signed_of ("fn from(message: ".toList ++ c.name .out ++ ") -> Self".toList) [] [] (by rw [sig_from]) ?_
    refine impl_infix 2 _ ?_ rfl
    simp only [List.getElem?_cons_succ, List.getElem?_cons_zero, Option.some.injEq, blockText_line, List.append_assoc, List.nil_append, List.append_nil, line, brace_1,
      impl_from, DeclCode.body]
  · refine signed_of ("pub fn deserialize_from_reader_ref<T: ::std::io::BufRead>(".toList ++
      ("\n".toList ++ line (ind + 2) "reader: &mut T,".toList ++ indent (ind + 1) ++ ") -> ::std::io::Result<Self>".toList)) [] []
      (by rw [sig_deserialize, newline_4, newline_5]; simp only [line, List.append_assoc]) ?_
    refine impl_infix 4 _ ?_ rfl
    simp only [List.getElem?_cons_succ, List.getElem?_cons_zero, Option.some.injEq, blockText_line, List.append_assoc, List.nil_append, List.append_nil, line, brace_2,
      impl_deserialize, DeclCode.body]
  · refine signed_of ("pub fn size(&self) -> usize".toList) [] [] (by rw [sig_size]) ?_
    refine impl_infix 5 _ ?_ rfl
    simp only [List.getElem?_cons_succ, List.getElem?_cons_zero, Option.some.injEq, blockText_line, List.append_assoc, List.nil_append, List.append_nil, line, brace_3,
      impl_size, DeclCode.body]

/-- **C86 (the text).** The functions which code can call are in the generated file, with these signatures: if `o`, `i` and `a` are the types of a declaration, then in
their module there are `impl` blocks with functions with the specified signatures; and the traits are implemented. -/
theorem C86_printed (T : CharTable) (version : Str) (S : Schemas) (o i a : TypeId) (h : impls T S o i a) :
    (∀ f, ∃ e, Inside "pub mod ".toList "    ".toList (HasSignedFn o.2 i.2 a.2 f e) 0 o.1 (rustText T version S)) ∧
    Inside "pub mod ".toList "    ".toList (HasTraitFn "Serialize".toList o.2 sigSize traitSize) 0 o.1 (rustText T version S) ∧
    Inside "pub mod ".toList "    ".toList (HasTraitFn "Serialize".toList o.2 sigSerialize traitSerialize) 0 o.1 (rustText T version S) ∧
    Inside "pub mod ".toList "    ".toList (HasTraitFn "Deserialize".toList i.2 sigDeserialize traitDeserialize) 0 o.1 (rustText T version S) := by
  obtain ⟨ns, s, d, hf, hd, ho, hi, ha⟩ := h
  have h1 : o.2 = (declCode T s ⟨ns⟩ d).name .out := congrArg Prod.snd ho
  have h2 : i.2 = (declCode T s ⟨ns⟩ d).name .in_ := congrArg Prod.snd hi
  have h3 : a.2 = (declCode T s ⟨ns⟩ d).name .atlas := congrArg Prod.snd ha
  rw [h1, h2, h3]
  refine ⟨fun f => ⟨(declCode T s ⟨ns⟩ d).body f, ?_⟩, ?_, ?_, ?_⟩
  · exact rustText_decl (P := HasSignedFn _ _ _ f _) hf hd (fun _ _ _ => HasSignedFn.mono) (fun ind => declCode_signed _ f ind) version
  · exact rustText_decl (P := HasTraitFn _ _ sigSize traitSize) hf hd (fun _ _ _ => HasTraitFn.mono) (fun ind => (declCode_traits _ ind).1) version
  · exact rustText_decl (P := HasTraitFn _ _ sigSerialize traitSerialize) hf hd (fun _ _ _ => HasTraitFn.mono) (fun ind => (declCode_traits _ ind).2.1) version
  · exact rustText_decl (P := HasTraitFn _ _ sigDeserialize traitDeserialize) hf hd (fun _ _ _ => HasTraitFn.mono) (fun ind => (declCode_traits _ ind).2.2) version

/-- The variables which are not named after fields. -/
def fixedVars : List Var := [.self, .writer, .atlas, .message, .reader, .subReader, .payload, .payloadAtlas, .payloadSize, .fallback, .fallbackAtlas, .atlases, .atlasSize,
  .x, .zigzag, .varint, .index, .buffer, .header, .element, .err, .size]

theorem var_cases (x : Var) : x ∈ fixedVars ∨ ∃ n, x = .field n := by
  cases x with
  | field n => exact .inr ⟨n, rfl⟩
  | _ => exact .inl (by decide)

/-- **C86 (variables).** Different local variables have different names in the text. -/
theorem C86_variables (x y : Var) (h : x.text = y.text) : x = y := by
  have h1 : (fixedVars.map Var.text).Nodup := by decide +kernel
  have h2 : ∀ z ∈ fixedVars, z.text.head? ≠ some '_' := by decide +kernel
  rcases var_cases x with hx | ⟨n, rfl⟩ <;> rcases var_cases y with hy | ⟨m, rfl⟩
  · exact List.inj_on_of_nodup_map h1 hx hy h
  · exact absurd (congrArg List.head? h) (h2 x hx)
  · exact absurd (congrArg List.head? h).symm (h2 y hy)
  · exact congrArg Var.field (List.cons.inj h).2

/-- Types in signatures of the functions at the top of the file. -/
def rtText : RT → String
  | .u64 => "u64"
  | .i64 => "i64"
  | .usize => "usize"
  | .bool => "bool"
  | .unit => "()"
  | .pair a b => "(" ++ rtText a ++ "," ++ rtText b ++ ")"
  | .result t => "io::Result<" ++ rtText t ++ ">"
  | _ => "?"

/-- Types of parameters, and the bounds of type parameters. -/
def paramText : Param → String
  | .type t => rtText t
  | .reader => "&mutT"
  | .writer => "&mutT"

def boundText : List Param → String
  | [] => ""
  | .reader :: _ => "<T:BufRead>"
  | .writer :: _ => "<T:Write>"
  | .type _ :: ps => boundText ps

/-- The names of the parameters. -/
def paramNames : RuntimeFn → List String
  | .zigzagEncode => ["value"]
  | .zigzagDecode => ["value"]
  | .varintSizeFromValue => ["value"]
  | .fieldHeaderSize => ["index", "payload_size", "integer_encoded"]
  | .serializeVarint => ["mutvalue", "writer"]
  | .serializeFieldHeader => ["writer", "index", "payload_size", "integer_encoded"]
  | .deserializeVarint => ["reader"]
  | .deserializeFieldHeader => ["reader"]
  | .skip => ["reader", "mutamount"]
  | .finish => ["reader"]

/-- Without white space and commas before parentheses. -/
def squash (s : Str) : Str := go (s.filter (fun c => c ≠ ' ' ∧ c ≠ '\n'))
where
  go : Str → Str
    | ',' :: ')' :: s => ')' :: go s
    | c :: s => c :: go s
    | [] => []

/-- **C86 (functions at the top of the file).** Their signatures in the text (C80) are those which calls are checked against. -/
theorem C86_runtime (f : RuntimeFn) : squash f.fn.signature.toList = ("fn" ++ String.ofList f.text ++ boundText f.signature.1 ++ "(" ++
    ",".intercalate (List.zipWith (fun n p => n ++ ":" ++ paramText p) (paramNames f) f.signature.1) ++ ")->" ++ rtText f.signature.2).toList := by
  cases f <;> decide +kernel

/-! ### Examples -/

/-- The hypotheses are met. -/
example (f : Fn) : ∃ e, program asciiTable exampleSchemas (keyType (["main".toList], "ShapeOut".toList) (["main".toList], "ShapeIn".toList)
    (["main".toList], "ShapeAtlas".toList) f) f = some e := by
  have h : ∀ x, rustPascal asciiTable exampleMain.declarations[0].name (some x) = match x with
      | .out => "ShapeOut".toList
      | .in_ => "ShapeIn".toList
      | .atlas => "ShapeAtlas".toList := by intro x; cases x <;> decide +kernel
  have hm : (Namespace.components ⟨[ident "main"]⟩).map rustSnake = ["main".toList] := by decide +kernel
  obtain ⟨e, h1, -⟩ := C86_functions exampleSchemas_accepted exampleShape_declared f
  refine ⟨e, ?_⟩
  rw [← h1, outType, inType, atlasType, hm, h, h, h]

/-- A type whose values have values of the same type inside them is ruled out by `C86_finite`: a member `next: Option<Node>` is, a member
`next: Option<Box<Node>>` is not. -/
example : (Items.Inline (fun id => if id = ([], "Node".toList) then some (.struct "Node".toList [("next".toList, .option (.path ⟨0, [], "Node".toList⟩))]) else none)
    ([], "Node".toList) ([], "Node".toList)) := by
  unfold Items.Inline
  dsimp only
  rw [if_pos rfl]
  exact ⟨_, .head _, _, rfl, .option .named⟩

example (t : TypeId) : ¬ (Items.Inline (fun id => if id = ([], "Node".toList) then
    some (.struct "Node".toList [("next".toList, .option (.box (.path ⟨0, [], "Node".toList⟩)))]) else none) ([], "Node".toList) t) := by
  unfold Items.Inline
  dsimp only
  rw [if_pos rfl]
  rintro ⟨m, hm, τ, h1, h2⟩
  cases List.mem_singleton.mp hm
  cases h1
  cases h2 with
  | option h => cases h

/-- The hypotheses of `C86_finite` are met, also by the type which has a member of another type. -/
example : ¬ Relation.TransGen (items asciiTable exampleSchemas).Inline (outType asciiTable ⟨[ident "main"]⟩ exampleMain.declarations[0])
    (outType asciiTable ⟨[ident "main"]⟩ exampleMain.declarations[0]) := (C86_finite exampleSchemas_accepted exampleShape_declared (.inl rfl)).1

/-! The rules do reject: a number is not a message; -/
theorem lit_ty {E : TyEnv} {Γ : Vars} {l : Lit} {τ : RT} {k : Cat} (h : HasTy E Γ (.lit l) τ k) : LitTy l τ ∧ k = .value := by
  generalize he : Ex.lit l = e at h
  revert he
  apply HasTy.rec (motive_1 := fun E Γ e τ k _ => Ex.lit l = e → LitTy l τ ∧ k = .value) (motive_2 := fun _ _ _ _ _ => True) (motive_3 := fun _ _ _ _ _ => True)
    (motive_4 := fun _ _ _ _ _ => True) (motive_5 := fun _ _ _ _ _ _ _ => True) (t := h)
  case lit =>
    intro E Γ l τ h he
    cases he
    exact ⟨h, rfl⟩
  case never =>
    intro E Γ e τ h ih he
    exact nomatch (ih he).1
  case move =>
    intro E Γ e τ m h ih he
    exact nomatch (ih he).2
  case copy =>
    intro E Γ e τ o m c h ih he
    exact nomatch (ih he).2
  all_goals intros; first | exact True.intro | (rename_i he; cases he)

example (E : TyEnv) (Γ : Vars) (n : Nat) (id : TypeId) : ¬ HasTy E Γ (.lit (.usize n)) (.named id) .value := fun h => nomatch (lit_ty h).1

theorem var_ty {E : TyEnv} {Γ : Vars} {w : Var} {σ τ : RT} {k : Cat} {m : Bool} (h : HasTy E Γ (.var w) τ k) (g : Γ w = some (.ref σ, m)) : τ = .ref σ := by
  generalize he : Ex.var w = e at h
  revert he g
  apply HasTy.rec (motive_1 := fun E Γ e τ k _ => Γ w = some (.ref σ, m) → Ex.var w = e → τ = .ref σ) (motive_2 := fun _ _ _ _ _ => True)
    (motive_3 := fun _ _ _ _ _ => True) (motive_4 := fun _ _ _ _ _ => True) (motive_5 := fun _ _ _ _ _ _ _ => True) (t := h)
  case var =>
    intro E Γ v τ m h g he
    cases he
    exact (Prod.mk.inj (Option.some.inj (h.symm.trans g))).1
  case never =>
    intro E Γ e τ h ih g he
    exact nomatch ih g he
  case move =>
    intro E Γ e τ m h ih
    exact ih
  case copy =>
    intro E Γ e τ o m c h ih
    exact ih
  all_goals intros; first | exact True.intro | (rename_i he; cases he)

theorem deref_ty {E : TyEnv} {Γ : Vars} {w : Var} {t : TypeId} {τ : RT} {k : Cat} {m : Bool} (h : HasTy E Γ (.deref (.var w)) τ k)
    (g : Γ w = some (.ref (.named t), m)) : τ = .named t ∧ k = .place false false := by
  generalize he : Ex.deref (.var w) = e at h
  revert he g
  apply HasTy.rec (motive_1 := fun E Γ e τ k _ => Γ w = some (.ref (.named t), m) → Ex.deref (.var w) = e → τ = .named t ∧ k = .place false false)
    (motive_2 := fun _ _ _ _ _ => True) (motive_3 := fun _ _ _ _ _ => True) (motive_4 := fun _ _ _ _ _ => True) (motive_5 := fun _ _ _ _ _ _ _ => True) (t := h)
  case deref =>
    intro E Γ e τ k h ih g he
    cases he
    exact ⟨RT.ref.inj (var_ty h g), rfl⟩
  case derefMut =>
    intro E Γ e τ k h _ ih g he
    cases he
    exact nomatch var_ty h g
  case derefBox =>
    intro E Γ e τ o m h ih g he
    cases he
    exact nomatch var_ty h g
  case never =>
    intro E Γ e τ h ih g he
    exact nomatch (ih g he).1
  case move =>
    intro E Γ e τ m h ih g he
    exact nomatch (ih g he).2
  case copy =>
    intro E Γ e τ o m c h ih g he
    rw [(ih g he).1] at c
    cases c
  all_goals intros; first | exact True.intro | (rename_i he; cases he)

/-- and a message cannot be moved out of a reference. -/
example (E : TyEnv) (Γ : Vars) (t : TypeId) (h : Γ .self = some (.ref (.named t), false)) (τ : RT) : ¬ HasTy E Γ (.deref (.var .self)) τ .value :=
  fun h' => nomatch (deref_ty h' h).2

end Typical
