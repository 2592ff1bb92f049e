import Verif.Spec.Report
import Verif.Props.Listing
import Verif.Props.LoadErrors
import Verif.Props.Violations

/-!
# Property C93: what the user is told if loading or validating fails
-/

namespace Typical

theorem lists_of {T : CharTable} (hT : T.Ascii) (C : Colors) {source : Str} {r : SourceRange} (hin : InSource source r)
    (hv : EndsVisibly T source r) : ∃ l, listing T C source r = some l ∧ Lists T C source r l := by
  obtain ⟨shown, gutter, h1, h2, h3, h4, -⟩ := C49_listing hT C hin hv
  exact ⟨_, h1, shown, gutter, rfl, h2, h3, h4⟩

theorem told_of {T : CharTable} {P : Style} {source l : Str} {r : SourceRange} (h : Lists T P.colors source r l) (path : List Str)
    (message : Str) : Told T P source path r message (throwText P message (some (pathText path)) (some l)) := by
  refine ⟨l, h, ?_⟩
  unfold throwText
  dsimp only
  split
  · rename_i hl; simp [List.append_assoc]
  · rename_i hl; simp [List.append_assoc]

theorem allTexts_each {α : Type} {f : α → Option Str} {R : α → Str → Prop} : ∀ {l : List α}, (∀ a ∈ l, ∃ t, f a = some t ∧ R a t) →
    ∃ ts, allTexts f l = some ts ∧ Each R l ts
  | [], _ => ⟨[], rfl, .nil⟩
  | a :: l, h => by
    obtain ⟨t, h1, h2⟩ := h a (by simp)
    obtain ⟨ts, h3, h4⟩ := allTexts_each (f := f) (R := R) (l := l) (fun b hb => h b (by simp [hb]))
    exact ⟨t :: ts, by rw [allTexts, h1, h3], .cons h2 h4⟩

theorem MentionsAt.range {range r : SourceRange} {t : TypeVariant} {i : Option Identifier} {n : Identifier}
    (h : t.MentionsAt range r i n) : r ∈ range :: t.ranges := by
  induction h with
  | custom => simp
  | array _ ih => exact List.mem_cons_of_mem _ (by rw [TypeVariant.ranges]; exact ih)

theorem Preceded.mem {α : Type} {l : List α} {a : α} {p : α → Prop} (h : Preceded l a p) : a ∈ l := by
  obtain ⟨pre, post, rfl, -⟩ := h
  simp

/-- The place of a violation is a range in a declaration of the file. -/
theorem violation_place {S : Schemas} {ns : Namespace} {s : Schema} {v : VErr} (h : S.Violation ns s v) :
    ∃ r, v.place = some (ns, r) ∧ r ∈ s.declarations.flatMap Declaration.ranges := by
  have inD : ∀ {d : Declaration}, d ∈ s.declarations → d.sourceRange ∈ s.declarations.flatMap Declaration.ranges :=
    fun hd => List.mem_flatMap.mpr ⟨_, hd, by simp [Declaration.ranges]⟩
  have inF : ∀ {d : Declaration} {f : Field} {r : SourceRange}, d ∈ s.declarations → f ∈ d.fields → r ∈ f.ranges →
      r ∈ s.declarations.flatMap Declaration.ranges :=
    fun hd hf hr => List.mem_flatMap.mpr ⟨_, hd, List.mem_cons_of_mem _ (List.mem_flatMap.mpr ⟨_, hf, hr⟩)⟩
  have self : ∀ f : Field, f.sourceRange ∈ f.ranges := fun f => by simp [Field.ranges]
  cases h with
  | duplicateDeclaration d h => exact ⟨_, rfl, inD h.mem⟩
  | duplicateFieldName d f hd h => exact ⟨_, rfl, inF hd h.mem (self f)⟩
  | duplicateFieldIndex d f hd h => exact ⟨_, rfl, inF hd h.mem (self f)⟩
  | deletedIndex d f hd hf _ => exact ⟨_, rfl, inF hd hf (self f)⟩
  | indexTooLarge d f hd hf _ => exact ⟨_, rfl, inF hd hf (self f)⟩
  | indexGap d i hd _ _ _ => exact ⟨_, rfl, inD hd⟩
  | noImport d f r i n hd hf hm _ => exact ⟨_, rfl, inF hd hf (List.mem_cons_of_mem _ (MentionsAt.range hm))⟩
  | noType d f r i n k hd hf hm _ _ => exact ⟨_, rfl, inF hd hf (List.mem_cons_of_mem _ (MentionsAt.range hm))⟩

theorem find_entry {S : List (Namespace × LoadedFile)} (hn : (S.map (fun e => e.1.key)).Nodup) {x : Namespace × LoadedFile}
    (hx : x ∈ S) : S.find? (fun y => y.1.key == x.1.key) = some x := by
  induction S with
  | nil => cases hx
  | cons y S ih =>
    rw [List.map_cons, List.nodup_cons] at hn
    rcases List.mem_cons.mp hx with rfl | hx
    · simp
    · rw [List.find?_cons_of_neg]
      · exact ih hn.2 hx
      · intro he
        exact hn.1 (List.mem_map.mpr ⟨x, hx, (by simpa using he : y.1.key = x.1.key).symm⟩)

/-- **C93 (validation).** If validating the loaded files finds errors, then printing them does not panic; what is printed consists of
the texts of the errors, in the order in which they were found, and white space; and each text names the file, which contains the offending
declaration, field or type, says what is wrong, and shows its lines in the current text of the file. -/
theorem C93_validation {T : CharTable} (hT : T.Ascii) (hS : T.SpaceApart) {fs : FileSystem} {fuel : Nat} {path : FPath}
    {S : List (Namespace × LoadedFile)} (hl : loadSchemas T fs fuel path = .ok S) {es : List VErr}
    (hv : validate (S.map (fun e => (e.1, e.2.schema))) = .ok es) (P : Style) (typeText : TypeKey → Str) :
    ∃ E name texts out, loadEnv fs path = some (E, name) ∧ validationText T P typeText S es = some out ∧
      Each (ToldInvalid T P typeText E S) es texts ∧ InOrder T (texts.map (trim T)) out ∧ NoOuterSpace T out := by
  obtain ⟨E, name, hE, spec⟩ := C40_loaded hl
  have hld := C40_establishes_loaded hl
  have hn : (S.map (fun e => e.1.key)).Nodup := keySorted_nodup spec.sorted
  have key : ∀ e ∈ es, (∃ x ∈ S, (Schemas.Violation (S.map (fun e => (e.1, e.2.schema))) x.1 x.2.schema e)) ∨ ∃ p, e = .cycle p := by
    intro e he
    by_cases bad : ∃ e ∈ S.map (fun e => (e.1, e.2.schema)), ∃ v, Schemas.Violation (S.map (fun e => (e.1, e.2.schema))) e.1 e.2 v
    · obtain ⟨y, hy, h⟩ := (C59_errors_exact _ hld es hv bad e).mp he
      obtain ⟨x, hx, rfl⟩ := List.mem_map.mp hy
      exact .inl ⟨x, hx, h⟩
    · obtain ⟨p, k, h, -⟩ := C59_only_cycles _ hld es hv (fun e he v h => bad ⟨e, he, v, h⟩) e he
      exact .inr ⟨_, h⟩
  obtain ⟨texts, h1, h2⟩ := allTexts_each (f := VErr.report T P typeText S) (R := ToldInvalid T P typeText E S) (l := es) (by
    intro e he
    rcases key e he with ⟨x, hx, h⟩ | ⟨p, rfl⟩
    · obtain ⟨r, hp, hr⟩ := violation_place h
      obtain ⟨-, -, s, hpar, hres⟩ := spec.sound x hx
      have hpar' := hpar
      obtain ⟨hread, toks, ht, hps⟩ := hpar'
      have hr' : r ∈ s.ranges := by
        rw [hres.declarations] at hr
        exact List.mem_append_right _ hr
      obtain ⟨hin, hvis, -⟩ := C49_schema_ranges hT hS ht hps P.colors r hr'
      obtain ⟨l, hlst, hlists⟩ := lists_of hT P.colors hin hvis
      refine ⟨throwText P (e.message P typeText) (some (pathText x.2.path)) (some l), ?_, ?_⟩
      · unfold VErr.report
        rw [hp]
        dsimp only
        rw [find_entry hn hx]
        dsimp only
        rw [hlst]
        rfl
      · exact .placed x.1 r x.2 hp hx hread hr (told_of hlists _ _)
    · exact ⟨_, rfl, .cycle p rfl (by simp [ToldPlainly, throwText])⟩)
  exact ⟨E, name, texts, mergeErrors T texts, hE, by rw [validationText, h1]; rfl, h2, C50_merge hT texts⟩

theorem loadTexts_each {T : CharTable} {P : Style} {W : Wording} {E : LoadEnv} {R : LoadErr → List Str → Prop} :
    ∀ {l : List LoadErr}, (∀ a ∈ l, ∃ ts, LoadErr.report T P W E a = some ts ∧ R a ts) →
    ∃ tss, loadTexts T P W E l = some tss.flatten ∧ Each R l tss
  | [], _ => ⟨[], rfl, .nil⟩
  | a :: l, h => by
    obtain ⟨t, h1, h2⟩ := h a (by simp)
    obtain ⟨ts, h3, h4⟩ := loadTexts_each (R := R) (l := l) (fun b hb => h b (by simp [hb]))
    exact ⟨t :: ts, by rw [loadTexts, h1, h3]; rfl, .cons h2 h4⟩

theorem listedReport_told {T : CharTable} (hT : T.Ascii) (P : Style) {source : Str} {r : SourceRange} (hin : InSource source r)
    (hv : EndsVisibly T source r) (path : List Str) (m : Str) :
    ∃ t, listedReport T P source path (some m) r = some t ∧ Told T P source path r m t := by
  obtain ⟨l, h1, h2⟩ := lists_of hT P.colors hin hv
  refine ⟨throwText P m (some (pathText path)) (some l), ?_, told_of h2 path m⟩
  unfold listedReport
  simp only [h1]

theorem lexMessage_some (P : Style) (W : Wording) {source : Str} {x : LexErr} (hin : InSource source x.sourceRange) :
    ∃ m, LexErr.message P W source x = some m := by
  obtain ⟨a, b, c, h1, h2, h3⟩ := hin
  unfold LexErr.message
  cases x.kind with
  | integerTooLarge =>
    dsimp only
    rw [h2, h3, h1, slice_append]
    exact ⟨_, rfl⟩
  | _ => exact ⟨_, rfl⟩

/-- **C93 (loading).** If loading finds errors, printing them does not panic; what is printed consists of the texts of the errors, in the
order in which they were found, and white space; each text names the file, says what is wrong, and shows the lines of the file. -/
theorem C93_loading {T : CharTable} (hT : T.Ascii) (hS : T.SpaceApart) {fs : FileSystem} {fuel : Nat} {path : FPath} {E : LoadEnv}
    {name : Str} (hE : loadEnv fs path = some (E, name)) {es : List LoadErr} (h : loadSchemas T fs fuel path = .err es) (P : Style)
    (W : Wording) :
    ∃ texts out, loadText T P W E es = some out ∧ Each (ToldUnloadable T P W E) es texts ∧
      InOrder T (texts.flatten.map (trim T)) out ∧ NoOuterSpace T out := by
  obtain ⟨tss, h1, h2⟩ := loadTexts_each (T := T) (P := P) (W := W) (E := E) (R := ToldUnloadable T P W E) (l := es) (by
    intro e he
    obtain ⟨p, -, hp⟩ := C60_sound hE h e he
    cases hp with
    | unreadable hr =>
      refine ⟨_, rfl, ?_⟩
      cases W.origin p with
      | none =>
        refine .unreadable p _ [' '] [] ?_
        simp [throwText]
      | some o =>
        obtain ⟨o1, o2⟩ := o
        by_cases ho : o2 = []
        · refine .unreadable p _ (' ' :: P.magenta ('[' :: P.code o1 ++ [']']) ++ [' ']) [] ?_
          simp [throwText, ho]
        · refine .unreadable p _ (' ' :: P.magenta ('[' :: P.code o1 ++ [']']) ++ [' ']) (['\n', '\n'] ++ o2) ?_
          simp [throwText, ho]
    | lexical c xs hr ht =>
      obtain ⟨ts, h3, h4⟩ := allTexts_each
        (f := fun x => listedReport T P c p (LexErr.message P W c x) x.sourceRange)
        (R := fun x text => ∃ m, LexErr.message P W c x = some m ∧ Told T P c p x.sourceRange m text) (l := xs) (by
          intro x hx
          obtain ⟨hin, hv, -⟩ := C49_tokenizer_errors hT hS ht P.colors x hx
          obtain ⟨m, hm⟩ := lexMessage_some P W hin
          obtain ⟨t, k1, k2⟩ := listedReport_told hT P hin hv p m
          exact ⟨t, by rw [hm]; exact k1, m, hm, k2⟩)
      exact ⟨ts, by rw [LoadErr.report, hr]; exact h3, .lexical p c xs ts hr h4⟩
    | syntactic c toks xs hr ht hps =>
      obtain ⟨ts, h3, h4⟩ := allTexts_each
        (f := fun x => listedReport T P c p (some (ParseErr.message P (tokensIn T c) x)) x.sourceRange)
        (R := fun x text => Told T P c p x.sourceRange (ParseErr.message P (tokensIn T c) x) text) (l := xs) (by
          intro x hx
          obtain ⟨hin, hv, -⟩ := C49_parser_errors hT hS ht hps P.colors x hx
          exact listedReport_told hT P hin hv p _)
      exact ⟨ts, by rw [LoadErr.report, hr]; exact h3, .syntactic p c xs ts hr h4⟩
    | unresolved c s i hpar hi hc =>
      obtain ⟨hr, toks, ht, hps⟩ := hpar
      obtain ⟨hin, hv, -⟩ := C49_schema_ranges hT hS ht hps P.colors i.2.sourceRange
        (List.mem_append_left _ (List.mem_map.mpr ⟨i, hi, rfl⟩))
      obtain ⟨t, k1, k2⟩ := listedReport_told hT P hin hv p
        ("Unable to load ".toList ++ P.code (W.importText p i.2) ++ ".".toList)
      exact ⟨[_], by rw [LoadErr.report, hr]; dsimp only; rw [k1]; rfl, .unresolved p c i.2 t hr k2⟩
    | outside c s i target hpar hi hc hnp =>
      obtain ⟨hr, toks, ht, hps⟩ := hpar
      obtain ⟨hin, hv, -⟩ := C49_schema_ranges hT hS ht hps P.colors i.2.sourceRange
        (List.mem_append_left _ (List.mem_map.mpr ⟨i, hi, rfl⟩))
      obtain ⟨t, k1, k2⟩ := listedReport_told hT P hin hv p
        (P.code (FPath.text ⟨true, target⟩) ++ " is not a descendant of ".toList ++
          P.code (FPath.text ⟨true, E.canonicalBase⟩) ++ ", which is the base directory for this run.".toList)
      exact ⟨[_], by rw [LoadErr.report, hr]; dsimp only; rw [k1]; rfl, .outside p c i.2 target t hr k2⟩)
  exact ⟨tss, mergeErrors T tss.flatten, by rw [loadText, h1]; rfl, h2, C50_merge hT _⟩

/-! ### Without colours -/

theorem trim_prefix {T : CharTable} {a b : Str} (h1 : ∀ c, a.head? = some c → T.isWhitespace c = false)
    (h2 : ∀ c, a.getLast? = some c → T.isWhitespace c = false) : a <+: trim T (a ++ b) := by
  by_cases ha : a = []
  · subst ha; exact List.nil_prefix
  have hd : (a ++ b).dropWhile T.isWhitespace = a ++ b := by
    cases a with
    | nil => exact absurd rfl ha
    | cons c a => rw [List.cons_append, List.dropWhile_cons_of_neg]; simp [h1 c rfl]
  have ht : trim T (a ++ b) = trimEnd T (a ++ b) := by rw [trim, hd]; rfl
  rw [ht]
  obtain ⟨blank, k1, k2, -⟩ := trimEnd_split T (a ++ b)
  rcases prefix_cases k1 with ⟨e, k3, -⟩ | ⟨e, he, k3, k4⟩
  · exact ⟨e, k3.symm⟩
  · exfalso
    have hl : a.getLast? = e.getLast? := by
      rw [k3, List.getLast?_append_of_ne_nil _ he]
    have hm := h2 (e.getLast he) (by rw [hl, List.getLast?_eq_some_getLast he])
    have := k2 (e.getLast he) (by rw [k4]; exact List.mem_append_left _ (List.getLast_mem he))
    rw [hm] at this
    cases this

theorem InOrder.infix {T : CharTable} {ts : List Str} {s : Str} (h : InOrder T ts s) : ∀ t ∈ ts, t <:+: s := by
  induction h with
  | nil => simp
  | @cons gap t ts s hg h ih =>
    intro u hu
    rcases List.mem_cons.mp hu with rfl | hu
    · exact ⟨gap, s, rfl⟩
    · obtain ⟨x, y, hxy⟩ := ih u hu
      exact ⟨gap ++ t ++ x, y, by rw [← hxy]; simp [List.append_assoc]⟩

theorem told_plain {T : CharTable} {source : Str} {path : List Str} {r : SourceRange} {message text : Str}
    (h : Told T .plain source path r message text) : plainHead path message <+: text := by
  obtain ⟨l, -, rfl⟩ := h
  have e3 : ∀ x, Style.plain.redBold x = x := fun _ => rfl
  have e4 : ∀ x, Style.plain.magenta x = x := fun _ => rfl
  have e5 : ∀ x, Style.plain.code x = '`' :: (x ++ ['`']) := fun _ => rfl
  unfold plainHead
  rw [e3, e4, e5]
  generalize "[Error]".toList = tag
  refine ⟨if l = [] then [] else ['\n', '\n'] ++ l, ?_⟩
  simp only [List.append_assoc, List.cons_append, List.nil_append]

theorem plainHead_head (path : List Str) (message : Str) : (plainHead path message).head? = some '[' := by
  have e0 : "[Error]".toList = '[' :: "Error]".toList := by decide +kernel
  unfold plainHead
  rw [e0]
  generalize "Error]".toList = tag
  rfl

theorem plainHead_last (path : List Str) {message : Str} {c : Char} (h : message.getLast? = some c) :
    (plainHead path message).getLast? = some c := by
  unfold plainHead
  generalize "[Error]".toList = tag
  rw [List.getLast?_append, h]
  rfl

theorem last_append {a b : Str} (h : b.getLast? = some '.') : (a ++ b).getLast? = some '.' := by
  rw [List.getLast?_append, h]
  rfl

/-- Messages of validation errors end with a full stop. -/
theorem VErr.message_last (P : Style) (typeText : TypeKey → Str) (e : VErr) : (e.message P typeText).getLast? = some '.' := by
  cases e with
  | noType ns r i name =>
    cases i with
    | none => exact last_append (by decide +kernel)
    | some i => exact last_append (by decide +kernel)
  | _ => exact last_append (by decide +kernel)

theorem each_mem_left {α β : Type} {R : α → β → Prop} {as : List α} {bs : List β} (h : Each R as bs) :
    ∀ a ∈ as, ∃ b ∈ bs, R a b := by
  induction h with
  | nil => simp
  | cons h0 _ ih =>
    intro a ha
    rcases List.mem_cons.mp ha with rfl | ha
    · exact ⟨_, by simp, h0⟩
    · obtain ⟨b, hb, hr⟩ := ih a ha
      exact ⟨b, by simp [hb], hr⟩

/-- **C93 (violations).** Without colours, what is printed contains, for each thing that is wrong with a loaded file (cycles apart), the
line which begins with `[Error]`, the path of the file, and the message. -/
theorem C93_violations {T : CharTable} (hT : T.Ascii) (hS : T.SpaceApart) {fs : FileSystem} {fuel : Nat} {path : FPath}
    {S : List (Namespace × LoadedFile)} (hl : loadSchemas T fs fuel path = .ok S) {es : List VErr}
    (hv : validate (S.map (fun e => (e.1, e.2.schema))) = .ok es) (typeText : TypeKey → Str) :
    ∃ out, validationText T .plain typeText S es = some out ∧
      ∀ x ∈ S, ∀ v, Schemas.Violation (S.map (fun e => (e.1, e.2.schema))) x.1 x.2.schema v →
        plainHead x.2.path (v.message .plain typeText) <:+: out := by
  obtain ⟨E, name, texts, out, hE, h1, h2, h3, -⟩ := C93_validation hT hS hl hv .plain typeText
  refine ⟨out, h1, ?_⟩
  intro x hx v hviol
  have hld := C40_establishes_loaded hl
  have hm : v ∈ es := (C59_errors_exact _ hld es hv ⟨_, List.mem_map.mpr ⟨x, hx, rfl⟩, v, hviol⟩ v).mpr
    ⟨_, List.mem_map.mpr ⟨x, hx, rfl⟩, hviol⟩
  obtain ⟨t, ht, hR⟩ := each_mem_left h2 v hm
  obtain ⟨r, hp, -⟩ := violation_place hviol
  obtain ⟨E', name', hE', spec⟩ := C40_loaded hl
  cases hR with
  | cycle p he => subst he; cases hp
  | placed ns r' file hp' hfile hread hr htold =>
    rw [hp] at hp'
    injection hp' with hp'
    injection hp' with hns hrr
    subst hns
    have hfx : x = (x.1, file) := by
      have k1 := find_entry (keySorted_nodup spec.sorted) hx
      have k2 := find_entry (keySorted_nodup spec.sorted) hfile
      rw [k1] at k2
      injection k2
    have hxf : x.2 = file := by rw [hfx]
    rw [hxf]
    obtain ⟨rest, hrest⟩ := told_plain htold
    have hw : ∀ c : Char, c.toNat < 128 → (c == ' ' || (9 ≤ c.toNat && c.toNat ≤ 13)) = false → T.isWhitespace c = false := by
      intro c hc hb
      rw [hT.isWhitespace c hc, hb]
    have hpre : plainHead file.path (v.message .plain typeText) <+: trim T t := by
      rw [← hrest]
      refine trim_prefix ?_ ?_
      · intro c hc
        have : c = '[' := by
          rw [plainHead_head] at hc
          injection hc with hc
          exact hc.symm
        subst this
        exact hw _ (by decide) (by decide)
      · intro c hc
        rw [plainHead_last _ (VErr.message_last .plain typeText v)] at hc
        injection hc with hc
        subst hc
        exact hw _ (by decide) (by decide)
    exact hpre.isInfix.trans (h3.infix _ (List.mem_map.mpr ⟨t, ht, rfl⟩))

theorem plain_space {T : CharTable} (hT : T.Ascii) (c : Char) (hc : c = '[' ∨ c = ']' ∨ c = '.') : T.isWhitespace c = false := by
  rcases hc with rfl | rfl | rfl
  · rw [hT.isWhitespace _ (by decide)]; decide
  · rw [hT.isWhitespace _ (by decide)]; decide
  · rw [hT.isWhitespace _ (by decide)]; decide

theorem head_trimmed {T : CharTable} (hT : T.Ascii) {path : List Str} {m t : Str} (hm : m.getLast? = some '.')
    (h : plainHead path m <+: t) : plainHead path m <+: trim T t := by
  obtain ⟨rest, rfl⟩ := h
  refine trim_prefix ?_ ?_
  · intro c hc
    rw [plainHead_head] at hc
    injection hc with hc
    exact plain_space hT c (.inl hc.symm)
  · intro c hc
    rw [plainHead_last _ hm] at hc
    injection hc with hc
    exact plain_space hT c (.inr (.inr hc.symm))

/-- **C93 (syntax).** Without colours, what is printed contains, for each error of the tokenizer and of the parser in a file which was
read, the line which begins with `[Error]`, the path of the file, and the message. -/
theorem C93_syntax {T : CharTable} (hT : T.Ascii) (hS : T.SpaceApart) {fs : FileSystem} {fuel : Nat} {path : FPath} {E : LoadEnv}
    {name : Str} (hE : loadEnv fs path = some (E, name)) {es : List LoadErr} (h : loadSchemas T fs fuel path = .err es)
    (W : Wording) :
    ∃ out, loadText T .plain W E es = some out ∧
      (∀ p xs, .lexical p xs ∈ es → ∀ x ∈ xs, ∃ source m, E.fs.read (E.base.join (.rel p)) = some source ∧
        LexErr.message .plain W source x = some m ∧ plainHead p m <:+: out) ∧
      (∀ p xs, .syntactic p xs ∈ es → ∀ x ∈ xs, ∃ source, E.fs.read (E.base.join (.rel p)) = some source ∧
        plainHead p (ParseErr.message .plain (tokensIn T source) x) <:+: out) := by
  obtain ⟨texts, out, h1, h2, h3, -⟩ := C93_loading hT hS hE h .plain W
  refine ⟨out, h1, ?_, ?_⟩
  · intro p xs hp x hx
    obtain ⟨ts, hts, hR⟩ := each_mem_left h2 _ hp
    cases hR with
    | lexical _ source _ _ hr hea =>
      obtain ⟨t, ht, m, hm, htold⟩ := each_mem_left hea x hx
      refine ⟨source, m, hr, hm, ?_⟩
      have hl : m.getLast? = some '.' := by
        unfold LexErr.message at hm
        split at hm
        · injection hm with hm; rw [← hm]; decide +kernel
        · injection hm with hm; rw [← hm]; decide +kernel
        · obtain ⟨n, -, hn⟩ := Option.map_eq_some_iff.mp hm
          rw [← hn]; exact last_append (by decide +kernel)
        · injection hm with hm; rw [← hm]; exact last_append (by decide +kernel)
        · injection hm with hm; rw [← hm]; exact last_append (by decide +kernel)
      exact (head_trimmed hT hl (told_plain htold)).isInfix.trans
        (h3.infix _ (List.mem_map.mpr ⟨t, List.mem_flatten.mpr ⟨ts, hts, ht⟩, rfl⟩))
  · intro p xs hp x hx
    obtain ⟨ts, hts, hR⟩ := each_mem_left h2 _ hp
    cases hR with
    | syntactic _ source _ _ hr hea =>
      obtain ⟨t, ht, htold⟩ := each_mem_left hea x hx
      refine ⟨source, hr, ?_⟩
      have hl : (ParseErr.message .plain (tokensIn T source) x).getLast? = some '.' := by
        unfold ParseErr.message
        split
        · split
          · exact last_append (by decide +kernel)
          · split
            · exact last_append (by decide +kernel)
            · exact last_append (by decide +kernel)
        · split
          · decide +kernel
          · exact last_append (by decide +kernel)
        · exact last_append (by decide +kernel)
        · exact last_append (by decide +kernel)
        · decide +kernel
      exact (head_trimmed hT hl (told_plain htold)).isInfix.trans
        (h3.infix _ (List.mem_map.mpr ⟨t, List.mem_flatten.mpr ⟨ts, hts, ht⟩, rfl⟩))

theorem tag_last : "[Error]".toList.getLast? = some ']' := by decide +kernel

theorem tag_head : "[Error]".toList.head? = some '[' := by decide +kernel

theorem InOrder.begins {T : CharTable} {t : Str} {ts : List Str} {s a : Str} (h : InOrder T (t :: ts) s) (hn : NoOuterSpace T s)
    (ha : a <+: t) : a <+: s := by
  cases h with
  | @cons gap t ts s hg h =>
    cases gap with
    | nil =>
      obtain ⟨b, rfl⟩ := ha
      exact ⟨b ++ s, by simp [List.append_assoc]⟩
    | cons c gap =>
      have h1 := hn.1 c rfl
      rw [hg c (by simp)] at h1
      cases h1

/-- **C93 (never silent).** Without colours, what is printed if validation fails begins with `[Error]`. -/
theorem C93_begins {T : CharTable} (hT : T.Ascii) (hS : T.SpaceApart) {fs : FileSystem} {fuel : Nat} {path : FPath}
    {S : List (Namespace × LoadedFile)} (hl : loadSchemas T fs fuel path = .ok S) {e : VErr} {es : List VErr}
    (hv : validate (S.map (fun e => (e.1, e.2.schema))) = .ok (e :: es)) (typeText : TypeKey → Str) :
    ∃ out, validationText T .plain typeText S (e :: es) = some out ∧ "[Error]".toList <+: out := by
  obtain ⟨E, name, texts, out, hE, h1, h2, h3, h4⟩ := C93_validation hT hS hl hv .plain typeText
  refine ⟨out, h1, ?_⟩
  cases h2 with
  | @cons _ t _ ts hR _ =>
    have hp : "[Error]".toList <+: t := by
      cases hR with
      | cycle p he ht =>
        rw [ToldPlainly] at ht
        rw [ht]
        exact ⟨[' '] ++ e.message .plain typeText, by rw [← List.append_assoc]; rfl⟩
      | placed ns r file _ _ _ _ htold =>
        refine List.IsPrefix.trans ?_ (told_plain htold)
        unfold plainHead
        generalize "[Error]".toList = tag
        exact ⟨[' ', '[', '`'] ++ pathText file.path ++ ['`', ']', ' '] ++ e.message .plain typeText, by simp only [List.append_assoc]⟩
    obtain ⟨b, hb⟩ := hp
    refine h3.begins h4 ?_
    rw [← hb]
    refine trim_prefix ?_ ?_
    · intro c hc
      rw [tag_head] at hc
      injection hc with hc
      exact plain_space hT c (.inl hc.symm)
    · intro c hc
      rw [tag_last] at hc
      injection hc with hc
      exact plain_space hT c (.inr (.inl hc.symm))

theorem joinWith_infix (sep : Str) : ∀ (l : List Str), ∀ x ∈ l, x <:+: joinWith sep l
  | [], x, h => by cases h
  | [w], x, h => by rw [List.mem_singleton] at h; subst h; exact List.infix_refl _
  | w :: w' :: ws, x, h => by
    rw [joinWith]
    rcases List.mem_cons.mp h with rfl | h
    · exact ⟨[], sep ++ joinWith sep (w' :: ws), by simp [List.append_assoc]⟩
    · exact (joinWith_infix sep (w' :: ws) x h).trans ⟨w ++ sep, [], by simp⟩

theorem infix_mid (a b c : Str) : b <:+: a ++ b ++ c := ⟨a, c, rfl⟩

theorem infix_first (a b c d e : Str) : b <:+: a ++ b ++ c ++ d ++ e := ⟨a, c ++ d ++ e, by simp only [List.append_assoc]⟩

/-- **C93 (messages).** The message of a validation error contains the names and numbers it is about (the largest index for an index which
is too large; the import and the type for a type which an import does not have; all types on a cycle). -/
theorem C93_messages (P : Style) (typeText : TypeKey → Str) {e : VErr} {x : Str} (h : VErr.About typeText e x) :
    P.code x <:+: e.message P typeText := by
  cases h with
  | maximum ns r i =>
    unfold VErr.message
    exact infix_mid _ _ _
  | indexTooLarge ns r i =>
    unfold VErr.message
    exact infix_first _ _ _ _ _
  | noType ns r i name =>
    cases i with
    | none =>
      unfold VErr.message
      exact infix_mid _ _ _
    | some i =>
      unfold VErr.message
      exact infix_first _ _ _ _ _
  | cycle path k hk =>
    refine List.IsInfix.trans (joinWith_infix " \u2192 ".toList (path.map (fun k => P.code (typeText k))) _ (List.mem_map.mpr ⟨k, hk, rfl⟩)) ?_
    unfold VErr.message
    exact infix_mid _ _ _
  | _ =>
    unfold VErr.message
    exact infix_mid _ _ _

/-! ### Examples -/

/-- A file with two errors: the name of a field is used twice, and a type does not exist. -/
def exampleWrongFs : FileSystem :=
  simpleFs [(strs ["a.t"], "struct Foo {\n    x: U64 = 0\n    x: Bar = 1\n}\n".toList)] []

def printed (fs : FileSystem) (path : FPath) : Option Str :=
  match loadSchemas asciiTable fs 10 path with
  | .ok S =>
    match validate (S.map (fun e => (e.1, e.2.schema))) with
    | .ok es => validationText asciiTable .plain (fun k => joinWith ['.'] (k.1 ++ [k.2])) S es
    | .error _ => none
  | _ => none

/-- What is printed for this file. -/
theorem C93_example : printed exampleWrongFs (FPath.ofStr "a.t".toList) = some (
    "[Error] [`a.t`] A field named `x` already exists in this declaration.\n\n3 \u2502     x: Bar = 1\n        \u203e\u203e\u203e\u203e\u203e\u203e\u203e\u203e\u203e\u203e\n[Error] [`a.t`] There is no type named `Bar` in this file.\n\n3 \u2502     x: Bar = 1\n           \u203e\u203e\u203e".toList) := by
  decide +kernel

/-- The hypotheses of the theorems about validation are met by this file. -/
example : ∃ S e es, loadSchemas asciiTable exampleWrongFs 10 (FPath.ofStr "a.t".toList) = .ok S ∧
    validate (S.map (fun e => (e.1, e.2.schema))) = .ok (e :: es) := by
  have h : (match loadSchemas asciiTable exampleWrongFs 10 (FPath.ofStr "a.t".toList) with
      | .ok S => (match validate (S.map (fun e => (e.1, e.2.schema))) with | .ok (_ :: _) => true | _ => false)
      | _ => false) = true := by decide +kernel
  revert h
  cases loadSchemas asciiTable exampleWrongFs 10 (FPath.ofStr "a.t".toList) with
  | ok S =>
    dsimp only
    cases hv : validate (S.map (fun e => (e.1, e.2.schema))) with
    | error _ => intro h; cases h
    | ok es =>
      cases es with
      | nil => intro h; cases h
      | cons e es => intro _; exact ⟨S, e, es, rfl, hv⟩
  | _ => intro h; cases h

/-- Those of the theorems about loading are met by a file with errors of the tokenizer. -/
example : ∃ E name es, loadEnv (simpleFs [(strs ["a.t"], "struct _a {}".toList)] []) (FPath.ofStr "a.t".toList) = some (E, name) ∧
    loadSchemas asciiTable (simpleFs [(strs ["a.t"], "struct _a {}".toList)] []) 10 (FPath.ofStr "a.t".toList) = .err es := by
  have h : (match loadEnv (simpleFs [(strs ["a.t"], "struct _a {}".toList)] []) (FPath.ofStr "a.t".toList),
      loadSchemas asciiTable (simpleFs [(strs ["a.t"], "struct _a {}".toList)] []) 10 (FPath.ofStr "a.t".toList) with
      | some _, .err _ => true
      | _, _ => false) = true := by decide +kernel
  revert h
  cases loadEnv (simpleFs [(strs ["a.t"], "struct _a {}".toList)] []) (FPath.ofStr "a.t".toList) with
  | none => intro h; cases h
  | some x =>
    cases loadSchemas asciiTable (simpleFs [(strs ["a.t"], "struct _a {}".toList)] []) 10 (FPath.ofStr "a.t".toList) with
    | err es => intro _; exact ⟨x.1, x.2, es, rfl, rfl⟩
    | _ => intro h; cases h

end Typical
