import Verif.Gen.TypeProof
import Verif.Props.GeneratedFile

/-!
# Property C85: the types which are declared in the generated Rust file

The other theorems about generated Rust code (C67-C71, C82-C84) are about values which hold messages (`Holds`). Here: these are exactly the values of the types which
the generated file declares, in the sense of Rust (`HasType`).
-/

namespace Typical

open Gen

/-- The first line and the other lines of the definition of a type. -/
def itemHead : Item → Str
  | .struct name _ => "pub struct ".toList ++ name
  | .enum name _ => "pub enum ".toList ++ name

/-- The components of a variant, in parentheses. -/
def componentsText : List TypeEx → Str
  | [] => []
  | t :: ts => "(".toList ++ joinWith ", ".toList ((t :: ts).map TypeEx.text) ++ ")".toList

/-- The line of a member; the line of a variant. -/
def memberLine (indentation : Str) (m : Str × TypeEx) : Str := indentation ++ "pub ".toList ++ m.1 ++ ": ".toList ++ m.2.text ++ ",\n".toList
def variantLine (indentation : Str) (v : Str × List TypeEx) : Str := indentation ++ v.1 ++ componentsText v.2 ++ ",\n".toList

/-- The lines inside of the definition of a type: one per member or variant. -/
def itemLines (indentation : Str) : Item → List Str
  | .struct _ members => members.map (memberLine indentation)
  | .enum _ variants => variants.map (variantLine indentation)

/-- The text has this definition. -/
def HasItem (i : Item) (ind : Nat) (text : Str) : Prop :=
  blockText "    ".toList ind (itemHead i) (itemLines (List.replicate (ind + 1) "    ".toList).flatten i).flatten <:+: text

theorem flatMap_flatten {α β : Type} (f : α → List β) (l : List α) : l.flatMap f = (l.map f).flatten := rfl

theorem brace_newline : " {\n".toList = " {".toList ++ "\n".toList := rfl
theorem close_newline : "}\n".toList = "}".toList ++ "\n".toList := rfl

theorem componentsText_eq (l : List TypeEx) :
    (if l.isEmpty then [] else "(".toList ++ joinWith ", ".toList (l.map TypeEx.text) ++ ")".toList) = componentsText l := by
  cases l <;> rfl

theorem struct_text (name : Str) (members : List (Str × TypeEx)) (ind : Nat) : (Item.struct name members).text ind =
    deriveLine ind ++ (line ind ("pub struct ".toList ++ name ++ " {".toList) ++ (members.map (memberLine (indent (ind + 1)))).flatten ++ line ind "}".toList) := by
  unfold Item.text line memberLine
  dsimp only
  rw [flatMap_flatten, brace_newline, close_newline]
  simp only [List.append_assoc]

theorem enum_text (name : Str) (variants : List (Str × List TypeEx)) (ind : Nat) : (Item.enum name variants).text ind =
    deriveLine ind ++ (line ind ("pub enum ".toList ++ name ++ " {".toList) ++ (variants.map (variantLine (indent (ind + 1)))).flatten ++ line ind "}".toList) := by
  unfold Item.text line variantLine
  dsimp only
  rw [flatMap_flatten, brace_newline, close_newline]
  simp only [componentsText_eq]
  simp only [List.append_assoc]

theorem item_text (i : Item) (ind : Nat) : i.text ind =
    deriveLine ind ++ (blockText "    ".toList ind (itemHead i) (itemLines (List.replicate (ind + 1) "    ".toList).flatten i).flatten) := by
  rw [blockText_line]
  cases i with
  | struct name members => exact struct_text name members ind
  | enum name variants => exact enum_text name variants ind

theorem item_infix (i : Item) (ind : Nat) : HasItem i ind (i.text ind) := by
  rw [item_text]
  exact infix_right List.infix_rfl

/-- **C85 (the text).** Each type of the generated program is declared in the generated file, in the modules which its path says. -/
theorem C85_printed (T : CharTable) (version : Str) (S : Schemas) (t : TypeId) (i : Item) (h : items T S t = some i) :
    Inside "pub mod ".toList "    ".toList (HasItem i) 0 t.1 (rustText T version S) := by
  unfold items at h
  cases hm : (buildTree S).findText [] t.1 with
  | none => rw [hm] at h; cases h
  | some r =>
    obtain ⟨ns, s⟩ := r
    rw [hm] at h
    simp only at h
    obtain ⟨d, hd, h⟩ := List.exists_of_findSome?_eq_some h
    refine rustText_decl (P := HasItem i) hm hd (fun _ _ _ h1 h2 => List.IsInfix.trans h2 h1) (fun ind => ?_) version
    refine (item_infix i ind).trans (infix_joinWith _ (List.mem_append_left _ (List.mem_map.mpr ⟨i, List.mem_of_find?_eq_some h, rfl⟩)))

theorem Accepted.defines {T : CharTable} {S : Schemas} (hA : Accepted T S) : Defines T S := program_defines hA.loaded hA.names

/-- **C85.** The values of the types which are declared for messages to be written and for messages which are read are exactly the values which
hold the content of a message. -/
theorem C85_values {T : CharTable} {S : Schemas} (hA : Accepted T S) {k : List Str × Str} {ns : Namespace} {f : Schema} {d : Declaration}
    (hd : S.Declares k ns f d) (x : Dir) (v : Val) : HasType (items T S) (.named (generatedType T ns d x)) v ↔ ∃ t, Holds T S x k v t :=
  hasType_iff hA.loaded hA.wellFormed hA.defines hd

/-- **C85 (writing).** `size` and `serialize` succeed for every value of the declared type, unless the message has `2 ^ 64` bytes or more; they agree on the size. -/
theorem C85_serialize {T : CharTable} {S : Schemas} (hA : Accepted T S) {k : List Str × Str} {c : CTy} (hc : S.Denotes k c) {ns : Namespace} {f : Schema} {d : Declaration}
    (hd : S.Declares k ns f d) {v : Val} (hv : HasType (items T S) (.named (generatedType T ns d .out)) v) : ∃ bs : Bytes, bs.length < 2 ^ 64 →
    ∀ (lim : Nat) (out : Bytes) (readers : List Bytes),
      Runs lim (program T S) (generatedType T ns d .out) traitSize ⟨[(.self, v)], out, readers⟩ (.val (.usize bs.length), ⟨[(.self, v)], out, readers⟩) ∧
      Runs lim (program T S) (generatedType T ns d .out) traitSerialize ⟨[(.self, v), (.writer, .writer)], out, readers⟩
        (.val (.ok .unit), ⟨[(.self, v), (.writer, .writer)], out ++ bs, readers⟩) := by
  obtain ⟨t, ht⟩ := (C85_values hA hd .out v).mp hv
  exact ⟨t.wire false, fun h lim out readers => C67_serialize hA hc ht h lim _ out readers⟩

/-- **C85 (reading).** Whatever bytes `deserialize` is given, if it returns `Ok(v)`, then `v` is a value of the declared type. -/
theorem C85_deserialize {T : CharTable} {S : Schemas} (hA : Accepted T S) {k : List Str × Str} {c : CTy} (hc : S.Denotes k c) {ns : Namespace} {f : Schema} {d : Declaration}
    (hd : S.Declares k ns f d) (lim : Nat) (s out : Bytes) {v : Val} {s' : St}
    (h : Runs lim (program T S) (generatedType T ns d .inn) traitDeserialize ⟨[(.reader, .reader 1)], out, [s]⟩ (.val (.ok v), s')) :
    HasType (items T S) (.named (generatedType T ns d .inn)) v := by
  have h1 := C68_deserialize hA hc hd lim s out
  cases hs : deserialize lim c s with
  | ok m =>
    rw [hs] at h1
    obtain ⟨v', h2, h3⟩ := h1
    cases C67_unique h h3
    exact (C85_values hA hd .inn _).mpr ⟨_, h2⟩
  | error e =>
    rw [hs] at h1
    obtain ⟨s'', h2⟩ := h1
    have := C67_unique h h2
    cases e <;> cases this

/-- **C85 (conversion).** The conversion maps every value of the type for writing to a value of the type for reading. -/
theorem C85_into {T : CharTable} {S : Schemas} (hA : Accepted T S) {k : List Str × Str} {c : CTy} (hc : S.Denotes k c) {ns : Namespace} {f : Schema} {d : Declaration}
    (hd : S.Declares k ns f d) {v : Val} (hv : HasType (items T S) (.named (generatedType T ns d .out)) v) (lim : Nat) (self : TypeId) (out : Bytes) (readers : List Bytes) :
    ∃ v', HasType (items T S) (.named (generatedType T ns d .inn)) v' ∧
      Runs lim (program T S) self intoCall ⟨[(.message, v)], out, readers⟩ (.val v', ⟨[(.message, v)], out, readers⟩) := by
  obtain ⟨t, ht⟩ := (C85_values hA hd .out v).mp hv
  obtain ⟨v', h1, h2⟩ := C69_into hA hc ht lim self out readers
  exact ⟨v', (C85_values hA hd .inn v').mpr ⟨_, h1⟩, h2⟩

/-! ### Examples -/

theorem exampleShape_declared : exampleSchemas.Declares (["main".toList], "shape".toList) ⟨[ident "main"]⟩ exampleMain exampleMain.declarations[0] :=
  ⟨.tail _ (.head _), .head _, by decide +kernel⟩

/-- The example has the declared type. -/
example : HasType (items asciiTable exampleSchemas) (.named (generatedType asciiTable ⟨[ident "main"]⟩ exampleMain.declarations[0] .out)) exampleShape :=
  (C85_values exampleSchemas_accepted exampleShape_declared .out _).mpr ⟨_, exampleShape_holds⟩

/-- The declared types of the example. -/
example : (items asciiTable exampleSchemas (["main".toList], "ShapeOut".toList)).map (Item.text 1) = some
    "    #[derive(Clone, Debug)]
    pub struct ShapeOut {
        pub name: String,
        pub points: Vec<Vec<super::lib::geo::PointOut>>,
        pub kind: Option<KindOut>,
    }
".toList := by decide +kernel

/-- A value without one of the members is not a value of the type. -/
example (v : Val) : ¬ HasType (items asciiTable exampleSchemas) (.named (generatedType asciiTable ⟨[ident "main"]⟩ exampleMain.declarations[0] .out))
    (.struct (["main".toList], "ShapeOut".toList) [("name".toList, v)]) := by
  intro h
  have hi : (items asciiTable exampleSchemas (generatedType asciiTable ⟨[ident "main"]⟩ exampleMain.declarations[0] .out)).map
      (fun i => match i with | .struct _ l => l.length | .enum _ _ => 0) = some 3 := by decide +kernel
  cases h with
  | struct he hm =>
    rw [he] at hi
    cases hm with
    | cons hr ht h' =>
      cases h'
      cases hi

end Typical
