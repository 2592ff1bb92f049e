import Verif.Gen.RustFile
import Verif.Spec.Text
import Verif.Props.GeneratedRust
import Verif.Props.EndToEnd

/-!
# Property C70: from schema files to running Rust code

The composition of everything on the way: `generate` reads, tokenizes, parses, resolves, validates, generates; the code which it writes is executed.
-/

namespace Typical

open Gen

/-! ### The text contains the functions of the program -/

theorem infix_trans {α : Type} {a b c : List α} (h : a <:+: b) (h' : b <:+: c) : a <:+: c := List.IsInfix.trans h h'

theorem infix_right {α : Type} {a b c : List α} (h : a <:+: b) : a <:+: c ++ b := h.trans (List.suffix_append c b).isInfix

theorem infix_left {α : Type} {a b c : List α} (h : a <:+: b) : a <:+: b ++ c := h.trans (List.prefix_append b c).isInfix

theorem infix_joinWith (sep : Str) {a : Str} : {l : List Str} → a ∈ l → a <:+: joinWith sep l
  | [b], h => by
    cases List.mem_singleton.mp h
    exact List.infix_rfl
  | b :: c :: l, h => by
    show a <:+: b ++ sep ++ joinWith sep (c :: l)
    rcases List.mem_cons.mp h with rfl | h
    · exact infix_left (infix_left List.infix_rfl)
    · exact infix_right (infix_joinWith sep h)

theorem blockText_line (ind : Nat) (head inner : Str) :
    blockText "    ".toList ind head inner = line ind (head ++ " {".toList) ++ inner ++ line ind "}".toList := by
  simp [blockText, line, indent]

mutual
theorem moduleText_contains (T : CharTable) {P : Nat → Str → Prop} (hP : ∀ ind a b, a <:+: b → P ind a → P ind b) {d : Declaration}
    {ns' : List Identifier} {s : Schema} (hd : d ∈ s.declarations) (hc : ∀ ind, P ind ((declCode T s ⟨ns'⟩ d).text ind)) :
    (m : Module) → (path : List Str) → (ind : Nat) → (ns : List Identifier) → m.findText ns path = some (ns', s) →
    Inside "pub mod ".toList "    ".toList P ind path (moduleText T ind ns m)
  | .mk children schema, [], ind, ns, h => by
    cases h
    rw [moduleText]
    exact hP _ _ _ (infix_right (infix_joinWith _ (List.mem_map.mpr ⟨d, hd, rfl⟩))) (hc ind)
  | .mk children schema, name :: path, ind, ns, h => by
    rw [moduleText]
    obtain ⟨inner, h1, h2⟩ := modulesText_contains T hP hd hc children name path ind ns _ h
    exact ⟨inner, infix_left h1, h2⟩
theorem modulesText_contains (T : CharTable) {P : Nat → Str → Prop} (hP : ∀ ind a b, a <:+: b → P ind a → P ind b) {d : Declaration}
    {ns' : List Identifier} {s : Schema} (hd : d ∈ s.declarations) (hc : ∀ ind, P ind ((declCode T s ⟨ns'⟩ d).text ind)) :
    (ms : Modules) → (name : Str) → (path : List Str) → (ind : Nat) → (ns : List Identifier) → (more : Bool) → (match ms.findText name with
      | none => none
      | some (i, m) => m.findText (ns ++ [i]) path) = some (ns', s) →
    Inside "pub mod ".toList "    ".toList P ind (name :: path) (modulesText T ind ns more ms)
  | .nil, _, _, _, _, _, h => by cases h
  | .cons i m rest, name, path, ind, ns, more, h => by
    rw [Modules.findText] at h
    unfold modulesText
    by_cases hi : rustSnake i = name
    · rw [if_pos hi] at h
      refine ⟨moduleText T (ind + 1) (ns ++ [i]) m, ?_, moduleText_contains T hP hd hc m path (ind + 1) (ns ++ [i]) h⟩
      rw [blockText_line, ← hi, List.append_assoc "pub mod ".toList]
      exact infix_left (infix_left List.infix_rfl)
    · rw [if_neg hi] at h
      obtain ⟨inner, h1, h2⟩ := modulesText_contains T hP hd hc rest name path ind ns more h
      exact ⟨inner, infix_right h1, h2⟩
end

/-- The block which has the function `f`: functions are in `impl` blocks for their type; the conversion is in an implementation of a trait. -/
def implHead (type : Str) : Fn → Str → Prop
  | .from_, head => ∃ target, head = "impl From<".toList ++ type ++ "> for ".toList ++ target
  | _, head => head = "impl ".toList ++ type

/-- The beginning of the signature of the function `f`. -/
def fnHead : Fn → Str
  | .atlas => "pub fn atlas(&self) -> ".toList
  | .serializeWithAtlas => "pub fn serialize_with_atlas<T: ::std::io::Write>(".toList
  | .from_ => "fn from(message: ".toList
  | .deserializeFromReaderRef => "pub fn deserialize_from_reader_ref<T: ::std::io::BufRead>(".toList
  | .size => "pub fn size(&self) -> usize".toList

/-- The text has the function `f` of the type with this name, with the body `e`. -/
def HasFn (type : Str) (f : Fn) (e : Ex) (ind : Nat) (text : Str) : Prop :=
  ∃ head inner sig, implHead type f head ∧ blockText "    ".toList ind head inner <:+: text ∧
    fnHead f <+: sig ∧ blockText "    ".toList (ind + 1) sig (e.print.lines (ind + 2)) <:+: inner

/-- The signatures of the functions of the traits. -/
def sigSize : Str := "fn size(&self) -> usize".toList
def sigSerialize : Str := "fn serialize<T: ::std::io::Write>(&self, mut writer: T) -> ::std::io::Result<()>".toList
def sigDeserialize : Str := "fn deserialize<T: ::std::io::BufRead>(mut reader: T) -> ::std::io::Result<Self>".toList

/-- The text has an implementation of the trait for the type, with a function with this signature and body. -/
def HasTraitFn (trait type sig : Str) (e : Ex) (ind : Nat) (text : Str) : Prop :=
  ∃ inner, blockText "    ".toList ind
      ("impl ".toList ++ (List.replicate ind "super::".toList).flatten ++ trait ++ " for ".toList ++ type) inner <:+: text ∧
    blockText "    ".toList (ind + 1) sig (e.print.lines (ind + 2)) <:+: inner

theorem HasFn.mono {type : Str} {f : Fn} {e : Ex} {ind : Nat} {a b : Str} (h : a <:+: b) : HasFn type f e ind a → HasFn type f e ind b
  | ⟨head, inner, sig, h1, h2, h3, h4⟩ => ⟨head, inner, sig, h1, h2.trans h, h3, h4⟩

theorem HasTraitFn.mono {trait type sig : Str} {e : Ex} {ind : Nat} {a b : Str} (h : a <:+: b) :
    HasTraitFn trait type sig e ind a → HasTraitFn trait type sig e ind b
  | ⟨inner, h1, h2⟩ => ⟨inner, h1.trans h, h2⟩

theorem impl_infix {c : DeclCode} {ind : Nat} {a : Str} (n : Nat) (impls : List Str) (hn : impls[n]? = some a)
    (h : c.text ind = joinWith "\n".toList (c.types.map (Item.text ind) ++ impls)) : a <:+: c.text ind := by
  rw [h]
  exact infix_joinWith _ (List.mem_append_right _ (List.mem_of_getElem? hn))

theorem block_infix (ind : Nat) (sig body before after : Str) :
    blockText "    ".toList ind sig body <:+: before ++ (line ind (sig ++ " {".toList) ++ body ++ line ind "}".toList) ++ after := by
  rw [blockText_line]
  exact infix_left (infix_right List.infix_rfl)

theorem brace_0 : ") -> ::std::io::Result<()> {".toList = ") -> ::std::io::Result<()>".toList ++ " {".toList := rfl
theorem brace_1 : ") -> Self {".toList = ") -> Self".toList ++ " {".toList := rfl
theorem brace_2 : ") -> ::std::io::Result<Self> {".toList = ") -> ::std::io::Result<Self>".toList ++ " {".toList := rfl
theorem brace_3 : "pub fn size(&self) -> usize {".toList = "pub fn size(&self) -> usize".toList ++ " {".toList := rfl
theorem brace_4 : "fn size(&self) -> usize {".toList = "fn size(&self) -> usize".toList ++ " {".toList := rfl
theorem brace_5 : "fn serialize<T: ::std::io::Write>(&self, mut writer: T) -> ::std::io::Result<()> {".toList = "fn serialize<T: ::std::io::Write>(&self, mut writer: T) -> ::std::io::Result<()>".toList ++ " {".toList := by decide +kernel
theorem brace_6 : "fn deserialize<T: ::std::io::BufRead>(mut reader: T) -> ::std::io::Result<Self> {".toList = "fn deserialize<T: ::std::io::BufRead>(mut reader: T) -> ::std::io::Result<Self>".toList ++ " {".toList := by decide +kernel
theorem brace_7 : "Serialize for ".toList = "Serialize".toList ++ " for ".toList := rfl
theorem brace_8 : "Deserialize for ".toList = "Deserialize".toList ++ " for ".toList := rfl

theorem declCode_hasFn (c : DeclCode) (f : Fn) (ind : Nat) : HasFn (c.name f.owner) f (c.body f) ind (c.text ind) := by
  cases f
  · refine ⟨_, [] ++ (line (ind + 1) (("pub fn atlas(&self) -> ".toList ++ c.name .atlas) ++ " {".toList) ++ c.atlas.print.lines (ind + 2) ++
      line (ind + 1) "}".toList) ++ ("\n".toList ++
      line (ind + 1) "pub fn serialize_with_atlas<T: ::std::io::Write>(".toList ++
      line (ind + 2) "&self,".toList ++
      line (ind + 2) "writer: &mut T,".toList ++
      line (ind + 2) ("atlas: &".toList ++ c.name .atlas ++ ",".toList) ++
      line (ind + 1) ") -> ::std::io::Result<()> {".toList ++
      c.serializeWithAtlas.print.lines (ind + 2) ++
      line (ind + 1) "}".toList), _, rfl, ?_, List.prefix_append _ _, block_infix _ _ _ _ _⟩
    refine impl_infix 3 _ ?_ rfl
    simp only [List.getElem?_cons_succ, List.getElem?_cons_zero, Option.some.injEq, blockText_line, List.append_assoc, List.nil_append, Fn.owner]
  · refine ⟨_, (line (ind + 1) ("pub fn atlas(&self) -> ".toList ++ c.name .atlas ++ " {".toList) ++
      c.atlas.print.lines (ind + 2) ++
      line (ind + 1) "}".toList ++
      "\n".toList) ++ (line (ind + 1) (("pub fn serialize_with_atlas<T: ::std::io::Write>(".toList ++
      ("\n".toList ++ line (ind + 2) "&self,".toList ++
      line (ind + 2) "writer: &mut T,".toList ++
      line (ind + 2) ("atlas: &".toList ++ c.name .atlas ++ ",".toList) ++ indent (ind + 1) ++
      ") -> ::std::io::Result<()>".toList)) ++ " {".toList) ++ c.serializeWithAtlas.print.lines (ind + 2) ++ line (ind + 1) "}".toList) ++ [],
      _, rfl, ?_, List.prefix_append _ _, block_infix _ _ _ _ _⟩
    refine impl_infix 3 _ ?_ rfl
    simp only [List.getElem?_cons_succ, List.getElem?_cons_zero, Option.some.injEq, blockText_line, List.append_assoc, List.nil_append, List.append_nil, Fn.owner, line, brace_0]
  · refine ⟨_, [] ++ (line (ind + 1) (("fn from(message: ".toList ++ (c.name .out ++ ") -> Self".toList)) ++ " {".toList) ++
      c.from_.print.lines (ind + 2) ++ line (ind + 1) "}".toList) ++ [], _, ⟨c.name .in_, rfl⟩, ?_, List.prefix_append _ _, block_infix _ _ _ _ _⟩
    refine impl_infix 2 _ ?_ rfl
    simp only [List.getElem?_cons_succ, List.getElem?_cons_zero, Option.some.injEq, blockText_line, List.append_assoc, List.nil_append, List.append_nil, Fn.owner, line, brace_1]
  · refine ⟨_, [] ++ (line (ind + 1) (("pub fn deserialize_from_reader_ref<T: ::std::io::BufRead>(".toList ++
      ("\n".toList ++ line (ind + 2) "reader: &mut T,".toList ++ indent (ind + 1) ++ ") -> ::std::io::Result<Self>".toList)) ++ " {".toList) ++
      c.deserializeFromReaderRef.print.lines (ind + 2) ++ line (ind + 1) "}".toList) ++ [],
      _, rfl, ?_, List.prefix_append _ _, block_infix _ _ _ _ _⟩
    refine impl_infix 4 _ ?_ rfl
    simp only [List.getElem?_cons_succ, List.getElem?_cons_zero, Option.some.injEq, blockText_line, List.append_assoc, List.nil_append, List.append_nil, Fn.owner, line, brace_2]
  · refine ⟨_, [] ++ (line (ind + 1) ("pub fn size(&self) -> usize".toList ++ " {".toList) ++
      c.size.print.lines (ind + 2) ++ line (ind + 1) "}".toList) ++ [], _, rfl, ?_, List.prefix_refl _, block_infix _ _ _ _ _⟩
    refine impl_infix 5 _ ?_ rfl
    simp only [List.getElem?_cons_succ, List.getElem?_cons_zero, Option.some.injEq, blockText_line, List.append_assoc, List.nil_append, List.append_nil, Fn.owner, line, brace_3]

theorem declCode_traits (c : DeclCode) (ind : Nat) :
    HasTraitFn "Serialize".toList (c.name .out) sigSize traitSize ind (c.text ind) ∧
    HasTraitFn "Serialize".toList (c.name .out) sigSerialize traitSerialize ind (c.text ind) ∧
    HasTraitFn "Deserialize".toList (c.name .in_) sigDeserialize traitDeserialize ind (c.text ind) := by
  refine ⟨⟨[] ++ (line (ind + 1) ("fn size(&self) -> usize".toList ++ " {".toList) ++ traitSize.print.lines (ind + 2) ++
      line (ind + 1) "}".toList) ++ ("\n".toList ++
      line (ind + 1) "fn serialize<T: ::std::io::Write>(&self, mut writer: T) -> ::std::io::Result<()> {".toList ++
      traitSerialize.print.lines (ind + 2) ++ line (ind + 1) "}".toList), ?_, block_infix _ _ _ _ _⟩,
    ⟨(line (ind + 1) "fn size(&self) -> usize {".toList ++ traitSize.print.lines (ind + 2) ++ line (ind + 1) "}".toList ++ "\n".toList) ++
      (line (ind + 1) ("fn serialize<T: ::std::io::Write>(&self, mut writer: T) -> ::std::io::Result<()>".toList ++ " {".toList) ++
      traitSerialize.print.lines (ind + 2) ++ line (ind + 1) "}".toList) ++ [], ?_, block_infix _ _ _ _ _⟩,
    ⟨[] ++ (line (ind + 1) ("fn deserialize<T: ::std::io::BufRead>(mut reader: T) -> ::std::io::Result<Self>".toList ++ " {".toList) ++
      traitDeserialize.print.lines (ind + 2) ++ line (ind + 1) "}".toList) ++ [], ?_, block_infix _ _ _ _ _⟩⟩
  · refine impl_infix 0 _ ?_ rfl
    simp only [List.getElem?_cons_succ, List.getElem?_cons_zero, Option.some.injEq, blockText_line, List.append_assoc, List.nil_append, List.append_nil, Fn.owner, line, brace_4, brace_5, brace_7, supersText]
  · refine impl_infix 0 _ ?_ rfl
    simp only [List.getElem?_cons_succ, List.getElem?_cons_zero, Option.some.injEq, blockText_line, List.append_assoc, List.nil_append, List.append_nil, Fn.owner, line, brace_4, brace_5, brace_7, supersText]
  · refine impl_infix 1 _ ?_ rfl
    simp only [List.getElem?_cons_succ, List.getElem?_cons_zero, Option.some.injEq, blockText_line, List.append_assoc, List.nil_append, List.append_nil, Fn.owner, line, brace_6, brace_8, supersText]

theorem rustText_decl {T : CharTable} {S : Schemas} {path : List Str} {ns : List Identifier} {s : Schema} {d : Declaration}
    (hm : (buildTree S).findText [] path = some (ns, s)) (hd : d ∈ s.declarations) {P : Nat → Str → Prop} (hP : ∀ ind a b, a <:+: b → P ind a → P ind b)
    (hc : ∀ ind, P ind ((declCode T s ⟨ns⟩ d).text ind)) (version : Str) : Inside "pub mod ".toList "    ".toList P 0 path (rustText T version S) := by
  have h1 := moduleText_contains T hP hd hc (buildTree S) path 0 [] hm
  have h2 : Module.nonEmpty (buildTree S) = true := by
    revert hm
    cases buildTree S with
    | mk children schema =>
      cases children with
      | cons _ _ _ => intro _; rfl
      | nil =>
        cases path with
        | nil =>
          intro hm
          cases hm
          rw [Module.nonEmpty]
          cases hs : s.declarations with
          | nil => rw [hs] at hd; cases hd
          | cons _ _ => rfl
        | cons _ _ => intro hm; cases hm
  rw [rustText, if_pos h2]
  revert h1
  cases path with
  | nil => exact hP _ _ _ (infix_right List.infix_rfl)
  | cons n l => exact fun ⟨inner, g1, g2⟩ => ⟨inner, infix_right g1, g2⟩

theorem rustText_contains {T : CharTable} {S : Schemas} {t : TypeId} {f : Fn} {e : Ex} (h : program T S t f = some e) :
    ∃ c : DeclCode, c.name f.owner = t.2 ∧ c.body f = e ∧ ∀ P : Nat → Str → Prop, (∀ ind a b, a <:+: b → P ind a → P ind b) →
      (∀ ind, P ind (c.text ind)) → ∀ version, Inside "pub mod ".toList "    ".toList P 0 t.1 (rustText T version S) := by
  unfold program at h
  cases hm : (buildTree S).findText [] t.1 with
  | none => rw [hm] at h; cases h
  | some r =>
    obtain ⟨ns, s⟩ := r
    rw [hm] at h
    simp only at h
    obtain ⟨d, hd, h⟩ := List.exists_of_findSome?_eq_some h
    rw [fn_eq] at h
    by_cases hn : t.2 = (declCode T s ⟨ns⟩ d).name f.owner
    · rw [if_pos hn] at h
      exact ⟨declCode T s ⟨ns⟩ d, hn.symm, Option.some.inj h, fun P hP hc version => rustText_decl hm hd hP hc version⟩
    · rw [if_neg hn] at h; cases h

/-- **C70 (the text).** Each function of the generated program is in the generated file: in the modules which its path says, in an `impl` block for its
type, there is a function with its name, whose body is the printed one. -/
theorem C70_printed (T : CharTable) (version : Str) (S : Schemas) (t : TypeId) (f : Fn) (e : Ex) (h : program T S t f = some e) :
    Inside "pub mod ".toList "    ".toList (HasFn t.2 f e) 0 t.1 (rustText T version S) := by
  obtain ⟨c, h1, h2, h3⟩ := rustText_contains h
  refine h3 (HasFn t.2 f e) (fun _ _ _ => HasFn.mono) (fun ind => ?_) version
  rw [← h1, ← h2]
  exact declCode_hasFn c f ind

/-- **C70 (the traits).** The type of messages to be written, which has a function `atlas`, implements the trait `Serialize`; the type of messages which
are read, which has a function `deserialize_from_reader_ref`, implements the trait `Deserialize`; and the functions of the traits are those which the
other theorems are about. -/
theorem C70_traits (T : CharTable) (version : Str) (S : Schemas) (t : TypeId) (e : Ex) :
    (program T S t .atlas = some e →
      Inside "pub mod ".toList "    ".toList
        (HasTraitFn "Serialize".toList t.2 sigSize traitSize) 0 t.1 (rustText T version S) ∧
      Inside "pub mod ".toList "    ".toList
        (HasTraitFn "Serialize".toList t.2 sigSerialize traitSerialize)
        0 t.1 (rustText T version S)) ∧
    (program T S t .deserializeFromReaderRef = some e →
      Inside "pub mod ".toList "    ".toList
        (HasTraitFn "Deserialize".toList t.2 sigDeserialize traitDeserialize)
        0 t.1 (rustText T version S)) := by
  refine ⟨fun h => ?_, fun h => ?_⟩
  · obtain ⟨c, h1, h2, h3⟩ := rustText_contains h
    have h1 : c.name .out = t.2 := h1
    rw [← h1]
    exact ⟨h3 (HasTraitFn _ _ sigSize traitSize) (fun _ _ _ => HasTraitFn.mono) (fun ind => (declCode_traits c ind).1) version,
      h3 (HasTraitFn _ _ sigSerialize traitSerialize) (fun _ _ _ => HasTraitFn.mono) (fun ind => (declCode_traits c ind).2.1) version⟩
  · obtain ⟨c, h1, h2, h3⟩ := rustText_contains h
    have h1 : c.name .in_ = t.2 := h1
    rw [← h1]
    exact h3 (HasTraitFn _ _ sigDeserialize traitDeserialize) (fun _ _ _ => HasTraitFn.mono) (fun ind => (declCode_traits c ind).2.2) version

/-- The hypotheses are met: the functions of the type of the example exist. -/
example : (program asciiTable exampleSchemas (["main".toList], "ShapeOut".toList) .atlas).isSome = true ∧
    (program asciiTable exampleSchemas (["main".toList], "ShapeIn".toList) .deserializeFromReaderRef).isSome = true := by decide +kernel

/-- **C70.** If `generate --rust p` succeeds, the file `p` with the generated code has been written. If names do not collide, then for every
declaration of every file which is reachable by imports, and every value `v` of its `Out` type with content `t` which is small enough: the generated
`serialize` writes the documented layout of `t`; and the generated `deserialize`, given these bytes, returns a value of the `In` type, whose
content is what a reader is shown of `t`. -/
theorem C70_generate {T : CharTable} {version : Str} {tsText : Schemas → Str} {fs : FileSystem} {fuel : Nat}
    {can : Effect → Bool} {path : FPath} {list : Bool} {p : FPath} {ts : Option FPath}
    (hs : (generateCode T (rustText T version) tsText fs fuel can path list (some p) ts).1 = .success) :
    ∃ E name L, loadEnv fs path = some (E, name) ∧ LoadedSpec T E [name] L ∧
      let S : Schemas := L.map (fun e => (e.1, e.2.schema))
      .write p (rustText T version S) ∈ (generateCode T (rustText T version) tsText fs fuel can path list (some p) ts).2 ∧
      (Gen.NamesOk T S → ∀ e ∈ S, ∀ d ∈ e.2.declarations, ∃ c : CTy, S.Denotes (e.1.key, d.name.snakeCase) c ∧
        ∀ v t, Holds T S .out (e.1.key, d.name.snakeCase) v t → ∀ lim, lim < 2 ^ 64 → 8 * (t.wire false).length ≤ lim →
          Runs lim (program T S) (generatedType T e.1 d .out) traitSerialize ⟨[(.self, v), (.writer, .writer)], [], []⟩
            (.val (.ok .unit), ⟨[(.self, v), (.writer, .writer)], t.wire false, []⟩) ∧
          ∃ v', Holds T S .inn (e.1.key, d.name.snakeCase) v' (c.view t) ∧
            Runs lim (program T S) (generatedType T e.1 d .inn) traitDeserialize ⟨[(.reader, .reader 1)], [], [t.wire false]⟩
              (.val (.ok v'), ⟨[(.reader, .reader 1)], [], [[]]⟩)) := by
  obtain ⟨L, hl, hw, hr, -⟩ := C44_success hs
  obtain ⟨E, name, hE, hspec⟩ := C40_loaded hl
  have hL := C40_establishes_loaded hl
  have hv := (C28_accepts_exactly_well_formed _ hL).mpr hw
  refine ⟨E, name, L, hE, hspec, hr p rfl, ?_⟩
  intro hN e he d hd
  have hA : Accepted T (L.map (fun e => (e.1, e.2.schema))) := ⟨hL, hv, hN⟩
  have hD : Schemas.Declares (L.map (fun e => (e.1, e.2.schema))) (e.1.key, d.name.snakeCase) e.1 e.2 d := ⟨he, hd, rfl⟩
  obtain ⟨c, h1, h2, h3⟩ := C30_wire_type _ hL hv _ _ _ _ hD
  refine ⟨c, h1, ?_⟩
  intro v t hvt lim hlim hsz
  obtain ⟨g1, g2⟩ := C67_serialize hA h1 hvt (by omega) lim (generatedType T e.1 d .out) [] []
  obtain ⟨v', k1, -, k3⟩ := C69_round_trip hA h1 hD hvt hlim hsz _ g2
  exact ⟨g2, v', k1, k3⟩

/-- A run with two files. -/
example : (generateCode asciiTable (rustText asciiTable "0.12.1".toList) (fun _ => []) untidyFs 4 (fun _ => true)
    (FPath.ofStr "p/a.t".toList) false (some (FPath.ofStr "out/a.rs".toList)) none).1 = .success := by decide +kernel

/-- Names do not collide in it. -/
example : ∀ L, loadSchemas asciiTable untidyFs 4 (FPath.ofStr "p/a.t".toList) = .ok L →
    Gen.NamesOk asciiTable (L.map (fun e => (e.1, e.2.schema))) := by
  intro L hL
  have h : (match loadSchemas asciiTable untidyFs 4 (FPath.ofStr "p/a.t".toList) with
    | .ok S => plainSchemas asciiTable (S.map (fun e => (e.1, e.2.schema))) && decide (validate (S.map (fun e => (e.1, e.2.schema))) = .ok [])
    | _ => false) = true := by decide +kernel
  rw [hL] at h
  simp only [Bool.and_eq_true, decide_eq_true_eq] at h
  exact (accepted_of_plain asciiTable_ascii (C40_establishes_loaded hL) h.2 h.1).names

/-! ### Versions -/

/-- **C71.** Let the declarations of two versions of some schemas be related by the documented rules of schema evolution. Whatever the program
generated from one version writes, the program generated from the other version reads, without an error; and what it gets is the content which was
written, restricted to what the reader's version knows. -/
theorem C71_versions {T T' : CharTable} {S S' : Schemas} (hA : Accepted T S) (hA' : Accepted T' S') {R : TypeKey → TypeKey → Prop}
    (hR : CompatibleSchemas S S' R) {k k' : TypeKey} (h : R k k') {ns : Namespace} {f : Schema} {d : Declaration} (hd : S'.Declares k' ns f d)
    {v : Val} {t : Tree} (hv : Holds T S .out k v t) {lim : Nat} (hlim : lim < 2 ^ 64) (hsz : 8 * (t.wire false).length ≤ lim) (self : TypeId) :
    ∃ c', S'.Denotes k' c' ∧ ∃ bs v',
      Runs lim (program T S) self traitSerialize ⟨[(.self, v), (.writer, .writer)], [], []⟩
        (.val (.ok .unit), ⟨[(.self, v), (.writer, .writer)], bs, []⟩) ∧
      Runs lim (program T' S') (generatedType T' ns d .inn) traitDeserialize ⟨[(.reader, .reader 1)], [], [bs]⟩
        (.val (.ok v'), ⟨[(.reader, .reader 1)], [], [[]]⟩) ∧
      Holds T' S' .inn k' v' (c'.project t) := by
  obtain ⟨c, c', hc, hc', hr, -⟩ := C57_versions S S' hA.loaded hA'.loaded hA.valid hA'.valid R hR k k' h
  refine ⟨c', hc', ?_⟩
  obtain ⟨N, hN, rfl, hw⟩ := hA.named hc
  obtain ⟨m, rfl, rfl⟩ := Holds.msg hA.loaded hA.wellFormed.names hv N hN
  have he := CTy.wire_eq_enc false _ hw m (by omega)
  obtain ⟨bs, v', h1, h2, h3⟩ := hr lim hlim m (by rw [size_eq, he]; exact hsz)
  have hd' := C68_deserialize hA' hc' hd lim bs []
  rw [h2] at hd'
  obtain ⟨w, g1, g2⟩ := hd'
  rw [h3] at g1
  rw [serialize_eq] at h1
  cases h1
  exact ⟨_, w, Runs.iff.mpr (Named.traitSerialize hA.implements hN lim self m _ [] [] rfl rfl (by rw [size_eq, he]; omega)), g2, g1⟩

/-- The schemas before and after an edit are accepted. -/
example : Accepted asciiTable exampleSchemas ∧ Accepted asciiTable (editSchemas exampleEdit exampleSchemas) :=
  ⟨exampleSchemas_accepted, accepted_of_plain asciiTable_ascii (by constructor <;> decide +kernel) (by decide +kernel) (by decide +kernel)⟩

/-- An execution of the generated code: the bytes which are written for `exampleShape`. -/
example : (match evalIn 1000 (callFn 1000 (program asciiTable exampleSchemas) 20) 20 ([], []) traitSerialize
    ⟨[(.self, exampleShape), (.writer, .writer)], [], []⟩ with
    | some (.val (.ok .unit), s) => s.out
    | _ => []) = exampleShapeTree.wire false := by decide +kernel

/-- What the other version reads: a struct with three members. -/
example : (match evalIn 1000 (callFn 1000 (program asciiTable (editSchemas exampleEdit exampleSchemas)) 40) 40
    (["main".toList], "ShapeIn".toList) traitDeserialize ⟨[(.reader, .reader 1)], [], [exampleShapeTree.wire false]⟩ with
    | some (.val (.ok (.struct _ [(_, .none), (_, .some (.str b)), (_, .vec [.vec [], .vec [.struct _ [(_, .f64 x), (_, .f64 y)]]])])), _) => (b, x, y)
    | _ => ([], 1, 1)) = ([104, 105], 0, 4607182418800017408) := by decide +kernel

end Typical
