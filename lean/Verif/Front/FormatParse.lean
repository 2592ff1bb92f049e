import Verif.Front.FormatLemmas

/-!
# Formatted text parses
-/

namespace Typical

theorem Lexes.cast {T : CharTable} {i j : Nat} {s : Str} {ts : List Token} (h : Lexes T i s ts) (e : i = j) :
    Lexes T j s ts := e ▸ h

/-! ## Fields -/

/-- What a field becomes by formatting and parsing. -/
structure FieldBack (T : CharTable) (F : Nat → Str → Str) (f f' : Field) : Prop where
  comment : f'.comment = f.comment.map (refill T F fieldWidth)
  rule : f'.rule = f.rule
  name : f'.name = Identifier.ofStr T f.name.snakeCase
  type : TypeBack T f.type.variant f'.type.variant
  index : f'.index = f.index

/-- The conditions on a field. -/
def FieldOk (T : CharTable) (F : Nat → Str → Str) (f : Field) : Prop :=
  SnakePlain T f.name ∧ (∀ p ∈ f.comment, Fillable T F fieldWidth p) ∧ f.index < 2 ^ 64 ∧
    TypeNames (SnakePlain T) (PascalPlain T) f.type.variant

/-- A word first. -/
def WordFirst (T : CharTable) (s : Str) : Prop := ∃ c w, s = c :: w ∧ T.isAlphabetic c = true

theorem keyword_wordFirst {T : CharTable} (hT : T.Ascii) {k : String} {v : TokVariant} (hk : (k, v) ∈ keywordTable) (s : Str) :
    WordFirst T (k.toList ++ s) := by
  obtain ⟨c, w, h1, h2, h3, -⟩ := keyword_chars hk
  exact ⟨c, w ++ s, by rw [h1]; rfl, by rw [hT.isAlphabetic c h3, h2]⟩

theorem plain_wordFirst {T : CharTable} {w : Str} (h : PlainName T w) (s : Str) : WordFirst T (w ++ s) := by
  obtain ⟨⟨c, v, rfl, h1, -⟩, -⟩ := h
  exact ⟨c, v ++ s, rfl, h1⟩

theorem noHash_word {T : CharTable} (hT : T.Ascii) (hS : T.SpaceApart) {b s : Str}
    (hb : ∀ c ∈ b, T.isWhitespace c = true ∧ c ≠ '\n') (h : WordFirst T s) : NoHash T (b ++ s) := by
  obtain ⟨c, w, rfl, hc⟩ := h
  refine ⟨b, _, rfl, hb, ?_⟩
  intro d hd
  simp only [List.head?_cons, Option.some.injEq] at hd
  subst hd
  constructor
  · intro h
    rw [h, hT.isAlphabetic '#' (by decide)] at hc
    exact absurd hc (by decide)
  · intro h
    rw [(hS c h).1] at hc; cases hc

theorem noHash_newline {T : CharTable} (s : Str) : NoHash T ('\n' :: s) :=
  ⟨[], _, rfl, by simp, by intro d hd; simp only [List.head?_cons, Option.some.injEq] at hd; subst hd; simp⟩

theorem noHash_nil {T : CharTable} : NoHash T [] := ⟨[], [], rfl, by simp, by simp⟩

theorem indent_noNewline {T : CharTable} (hT : T.Ascii) : ∀ c ∈ indent4, T.isWhitespace c = true ∧ c ≠ '\n' := by
  intro c hc
  have : c = ' ' := by simpa [indent4] using hc
  rw [this]; exact ⟨space_ws hT, by decide⟩

theorem lexes_rule {T : CharTable} (hT : T.Ascii) (r : Rule) {i : Nat} {rest : Str} {ts : List Token}
    (h : Lexes T (i + utf8Len (writeRule r)) rest ts) : ∃ us, RuleSyntax us r ∧ Lexes T i (writeRule r ++ rest) (us ++ ts) := by
  cases r with
  | required => exact ⟨[], .required, h⟩
  | asymmetric =>
    obtain ⟨t, ht, -, hl⟩ := lexes_keyword hT (k := "asymmetric") (v := .asymmetric) (i := i) (by simp [keywordTable])
      (sepFirst_cons (by simp)) (lexes_space hT (i := i + utf8Len "asymmetric".toList) h)
    exact ⟨[t], .asymmetric ht, hl⟩
  | optional =>
    obtain ⟨t, ht, -, hl⟩ := lexes_keyword hT (k := "optional") (v := .optional) (i := i) (by simp [keywordTable])
      (sepFirst_cons (by simp)) (lexes_space hT (i := i + utf8Len "optional".toList) h)
    exact ⟨[t], .optional ht, hl⟩

theorem lexes_fieldType {T : CharTable} (hT : T.Ascii) (ty : TypeVariant)
    (hn : TypeNames (SnakePlain T) (PascalPlain T) ty) {i : Nat} {rest : Str} {ts : List Token} {e : Token} (hr : SepFirst rest)
    (h : Lexes T (i + utf8Len (if ty = .unit then [] else ": ".toList ++ writeType T ty)) rest ts) :
    ∃ us ty', FieldTypeSyntax e us ty' ∧ TypeBack T ty ty'.variant ∧
      Lexes T i ((if ty = .unit then [] else ": ".toList ++ writeType T ty) ++ rest) (us ++ ts) := by
  by_cases hu : ty = .unit
  · subst hu
    rw [if_pos rfl] at h ⊢
    exact ⟨[], _, .absent, .unit, h⟩
  · rw [if_neg hu] at h ⊢
    have h' : Lexes T (i + 1 + 1 + utf8Len (writeType T ty)) rest ts :=
      h.cast (by rw [utf8Len_append]; show i + (2 + _) = _; omega)
    obtain ⟨us, ty', h1, h2, h3⟩ := lexes_type hT ty hn _ rest ts hr h'
    obtain ⟨t, ht, -, hl⟩ := lexes_symbol (c := ':') (v := .colon) (by simp [symbolTable]) (lexes_space hT h3)
    exact ⟨t :: us, ty', .present ht h1, h2, by simpa using hl⟩

theorem rule_wordFirst {T : CharTable} (hT : T.Ascii) (r : Rule) {s : Str} (h : WordFirst T s) : WordFirst T (writeRule r ++ s) := by
  cases r with
  | required => exact h
  | asymmetric =>
    have := keyword_wordFirst hT (k := "asymmetric") (v := .asymmetric) (by simp [keywordTable]) (' ' :: s)
    exact this
  | optional =>
    have := keyword_wordFirst hT (k := "optional") (v := .optional) (by simp [keywordTable]) (' ' :: s)
    exact this

theorem lexes_field {T : CharTable} (hT : T.Ascii) (hS : T.SpaceApart) {F : Nat → Str → Str} {f : Field} (hf : FieldOk T F f)
    {i : Nat} {rest : Str} {ts : List Token} (h : Lexes T (i + utf8Len (writeField T F f)) rest ts) :
    ∃ us f', FieldSyntax us f' ∧ FieldBack T F f f' ∧ Lexes T i (writeField T F f ++ rest) (us ++ ts) := by
  obtain ⟨hn, hc, hi, hty⟩ := hf
  -- The end of the line.
  let L1 := writeComment F indent4 f.comment
  let L3 := writeRule f.rule
  let L4 := f.name.snakeCase
  let L5 := (if f.type.variant = .unit then [] else ": ".toList ++ writeType T f.type.variant)
  have e : writeField T F f ++ rest = L1 ++ (indent4 ++ (L3 ++ (L4 ++ (L5 ++ (' ' :: '=' :: ' ' :: (showNat f.index ++
      '\n' :: rest)))))) := by
    simp only [writeField, List.append_assoc]
    rfl
  have el : utf8Len (writeField T F f) = utf8Len L1 + 4 + utf8Len L3 + utf8Len L4 + utf8Len L5 + 3 +
      utf8Len (showNat f.index) + 1 := by
    simp only [writeField, utf8Len_append]
    rfl
  have h8 := lexes_newline hT (h.cast (j := i + utf8Len L1 + 4 + utf8Len L3 + utf8Len L4 + utf8Len L5 + 1 + 1 + 1 +
      utf8Len (showNat f.index) + 1) (by rw [el]; omega))
  obtain ⟨tk, hk, h7⟩ := lexes_integer hT hi (sepFirst_cons (by simp)) h8
  obtain ⟨te, he, -, h6⟩ := lexes_symbol (c := '=') (v := .equals) (by simp [symbolTable]) (lexes_space hT h7)
  obtain ⟨u5, ty', s5, b5, h5⟩ := lexes_fieldType hT f.type.variant hty (e := te)
    (sepFirst_cons (by simp)) (lexes_space hT h6)
  have hsep : SepFirst (L5 ++ (' ' :: '=' :: ' ' :: (showNat f.index ++ '\n' :: rest))) := by
    show SepFirst ((if _ then _ else _) ++ _)
    split
    · exact sepFirst_cons (by simp)
    · exact sepFirst_cons (c := ':') (by simp)
  obtain ⟨tn, hvn, -, h4⟩ := lexes_name hT hn hsep h5
  obtain ⟨u3, s3, h3⟩ := lexes_rule hT f.rule h4
  have h2 := lexes_indent hT h3
  by_cases hcn : f.comment = []
  · have hL1 : L1 = [] := by show writeComment F indent4 f.comment = []; rw [hcn]; rfl
    refine ⟨[] ++ u3 ++ tn :: u5 ++ [te, tk], _, .mk .absent s3 hvn s5 he hk,
      ⟨by rw [hcn]; rfl, rfl, rfl, b5, rfl⟩, ?_⟩
    have e1 : ([] ++ u3 ++ tn :: u5 ++ [te, tk]) ++ ts = u3 ++ tn :: (u5 ++ te :: tk :: ts) := by simp
    rw [e, e1, hL1]
    exact (h2.cast (by rw [hL1]; rfl))
  · obtain ⟨t, hv, -, -, h1⟩ := lexes_comment hT (indent_noNewline hT) (w := fieldWidth) rfl hcn hc
      (noHash_word hT hS (indent_noNewline hT) (rule_wordFirst hT f.rule (plain_wordFirst hn _))) h2
    refine ⟨[t] ++ u3 ++ tn :: u5 ++ [te, tk], _, .mk (.present hv) s3 hvn s5 he hk, ⟨rfl, rfl, rfl, b5, rfl⟩, ?_⟩
    have e1 : ([t] ++ u3 ++ tn :: u5 ++ [te, tk]) ++ ts = t :: (u3 ++ tn :: (u5 ++ te :: tk :: ts)) := by simp
    rw [e, e1]
    exact h1

theorem lexes_fields {T : CharTable} (hT : T.Ascii) (hS : T.SpaceApart) {F : Nat → Str → Str} : ∀ (fs : List Field),
    (∀ f ∈ fs, FieldOk T F f) → ∀ (first previous : Bool) (i : Nat) (rest : Str) (ts : List Token),
    Lexes T (i + utf8Len (writeFields T F first previous fs)) rest ts →
    ∃ us fs', Many FieldSyntax us fs' ∧ Each (FieldBack T F) fs fs' ∧
      Lexes T i (writeFields T F first previous fs ++ rest) (us ++ ts)
  | [], _, first, previous, i, rest, ts, h => ⟨[], [], .nil, .nil, h⟩
  | f :: fs, hf, first, previous, i, rest, ts, h => by
    rw [writeFields] at h ⊢
    generalize hg : (if (previous || !f.comment.isEmpty) && !first then ['\n'] else []) = g at h ⊢
    have hgw : ∀ c ∈ g, T.isWhitespace c = true := by
      intro c hc
      rw [← hg] at hc
      split at hc
      · simp at hc; rw [hc]; exact newline_ws hT
      · cases hc
    have h1 := h.cast (j := i + utf8Len g + utf8Len (writeField T F f) +
      utf8Len (writeFields T F false (!f.comment.isEmpty) fs)) (by simp only [utf8Len_append]; omega)
    obtain ⟨us, fs', s1, b1, h2⟩ := lexes_fields hT hS fs (fun x hx => hf x (by simp [hx])) _ _ _ _ _ h1
    obtain ⟨us0, f', s0, b0, h3⟩ := lexes_field hT hS (hf f (by simp)) h2
    refine ⟨us0 ++ us, f' :: fs', .cons s0 s1, .cons b0 b1, ?_⟩
    have := lexes_gap hgw h3
    simpa using this

theorem lexes_indices {T : CharTable} (hT : T.Ascii) : ∀ (ns : List Nat), (∀ n ∈ ns, n < 2 ^ 64) → ∀ (i : Nat) (rest : Str)
    (ts : List Token), SepFirst rest → Lexes T (i + utf8Len (ns.flatMap (fun n => [' '] ++ showNat n))) rest ts →
    ∃ ks, ks.map Token.variant = ns.map TokVariant.integer ∧
      Lexes T i (ns.flatMap (fun n => [' '] ++ showNat n) ++ rest) (ks ++ ts)
  | [], _, i, rest, ts, _, h => ⟨[], rfl, h⟩
  | n :: ns, hn, i, rest, ts, hr, h => by
    rw [List.flatMap_cons] at h ⊢
    have h1 := h.cast (j := i + 1 + utf8Len (showNat n) + utf8Len (ns.flatMap (fun n => [' '] ++ showNat n)))
      (by simp only [utf8Len_append]; show _ = _; simp only [utf8Len]; show i + (1 + 0 + _ + _) = _; omega)
    obtain ⟨ks, hk, h2⟩ := lexes_indices hT ns (fun x hx => hn x (by simp [hx])) _ _ _ hr h1
    have hsep : SepFirst (ns.flatMap (fun n => [' '] ++ showNat n) ++ rest) := by
      cases ns with
      | nil => exact hr
      | cons m ns => exact sepFirst_cons (by simp)
    obtain ⟨t, ht, h3⟩ := lexes_integer hT (hn n (by simp)) hsep h2
    refine ⟨t :: ks, by simp [ht, hk], ?_⟩
    have := lexes_space hT h3
    simpa using this

theorem lexes_deleted {T : CharTable} (hT : T.Ascii) {d : Declaration} (hd : ∀ n ∈ d.deleted, n < 2 ^ 64)
    (hsort : d.deleted.Pairwise (· < ·)) {i : Nat} {rest : Str} {ts : List Token}
    (h : Lexes T (i + utf8Len (writeDeleted d)) rest ts) :
    ∃ us, DeletedSyntax us d.deleted ∧ Lexes T i (writeDeleted d ++ rest) (us ++ ts) := by
  by_cases hne : d.deleted = []
  · have e : writeDeleted d = [] := by simp [writeDeleted, hne]
    rw [e] at h ⊢
    refine ⟨[], ?_, h⟩
    rw [hne]; exact .absent
  · have hne' : (!d.deleted.isEmpty) = true := by simpa using hne
    unfold writeDeleted at h ⊢
    generalize hg : (if !d.fields.isEmpty && !d.deleted.isEmpty then ['\n'] else []) = g at h ⊢
    have hgw : ∀ c ∈ g, T.isWhitespace c = true := by
      intro c hc
      rw [← hg] at hc
      split at hc
      · simp at hc; rw [hc]; exact newline_ws hT
      · cases hc
    rw [if_pos hne'] at h ⊢
    have h1 := lexes_newline hT (h.cast (j := i + utf8Len g + 4 + utf8Len "deleted".toList +
      utf8Len (d.deleted.flatMap (fun n => [' '] ++ showNat n)) + 1) (by
        simp only [utf8Len_append]
        show i + (utf8Len g + (4 + utf8Len "deleted".toList + utf8Len (d.deleted.flatMap (fun n => [' '] ++ showNat n)) + 1)) = _
        omega))
    obtain ⟨ks, hk, h2⟩ := lexes_indices hT d.deleted hd _ _ _ (sepFirst_cons (by simp)) h1
    have hsep : SepFirst (d.deleted.flatMap (fun n => [' '] ++ showNat n) ++ '\n' :: rest) := by
      cases hdd : d.deleted with
      | nil => exact sepFirst_cons (by simp)
      | cons m ns => exact sepFirst_cons (by simp)
    obtain ⟨t, ht, -, h3⟩ := lexes_keyword hT (k := "deleted") (v := .deleted) (by simp [keywordTable]) hsep h2
    have h4 := lexes_gap hgw (lexes_indent hT h3)
    refine ⟨t :: ks, .present ht hk (hsort.imp (fun h => Nat.ne_of_lt h)) (List.Perm.refl _) hsort, ?_⟩
    simpa using h4

/-! ## Declarations -/

/-- What a declaration becomes by formatting and parsing. -/
structure DeclBack (T : CharTable) (F : Nat → Str → Str) (d d' : Declaration) : Prop where
  comment : d'.comment = d.comment.map (refill T F marginWidth)
  variant : d'.variant = d.variant
  name : d'.name = Identifier.ofStr T (d.name.pascalCase T)
  fields : Each (FieldBack T F) d.fields d'.fields
  deleted : d'.deleted = d.deleted

/-- The conditions on a declaration. -/
def DeclOk (T : CharTable) (F : Nat → Str → Str) (d : Declaration) : Prop :=
  PascalPlain T d.name ∧ (∀ p ∈ d.comment, Fillable T F marginWidth p) ∧ (∀ n ∈ d.deleted, n < 2 ^ 64) ∧
    d.deleted.Pairwise (· < ·) ∧ ∀ f ∈ d.fields, FieldOk T F f

theorem keyword_decl {T : CharTable} (hT : T.Ascii) (v : DeclVariant) {i : Nat} {rest : Str} {ts : List Token}
    (hr : SepFirst rest) (h : Lexes T (i + utf8Len (writeKeyword v)) rest ts) :
    ∃ t, KeywordSyntax t v ∧ t.sourceRange.start = i ∧ Lexes T i (writeKeyword v ++ rest) (t :: ts) := by
  cases v with
  | struct =>
    obtain ⟨t, ht, hp, hl⟩ := lexes_keyword hT (k := "struct") (v := .struct) (by simp [keywordTable]) hr h
    exact ⟨t, .inl ⟨ht, rfl⟩, by rw [hp], hl⟩
  | choice =>
    obtain ⟨t, ht, hp, hl⟩ := lexes_keyword hT (k := "choice") (v := .choice) (by simp [keywordTable]) hr h
    exact ⟨t, .inr ⟨ht, rfl⟩, by rw [hp], hl⟩

theorem keyword_first {T : CharTable} (hT : T.Ascii) (v : DeclVariant) (s : Str) : WordFirst T (writeKeyword v ++ s) := by
  cases v with
  | struct => exact keyword_wordFirst hT (k := "struct") (v := .struct) (by simp [keywordTable]) s
  | choice => exact keyword_wordFirst hT (k := "choice") (v := .choice) (by simp [keywordTable]) s

theorem lexes_decl {T : CharTable} (hT : T.Ascii) (hS : T.SpaceApart) {F : Nat → Str → Str} {d : Declaration}
    (hd : DeclOk T F d) {i : Nat} {rest : Str} {ts : List Token}
    (h : Lexes T (i + utf8Len (writeDeclaration T F d)) rest ts) :
    ∃ us d', DeclSyntax us d' ∧ DeclBack T F d d' ∧ (∀ t, us.head? = some t → t.sourceRange.start = i) ∧
      (∀ t u us' ps, us = t :: u :: us' → t.variant = .comment ps → u.sourceRange.start = t.sourceRange.stop + 1) ∧
      Lexes T i (writeDeclaration T F d ++ rest) (us ++ ts) := by
  obtain ⟨hn, hc, hdl, hds, hfs⟩ := hd
  let L1 := writeComment F [] d.comment
  let L2 := writeKeyword d.variant
  let L3 := d.name.pascalCase T
  let L4 := writeFields T F true false d.fields
  let L5 := writeDeleted d
  have e : writeDeclaration T F d ++ rest = L1 ++ (L2 ++ (' ' :: (L3 ++ (' ' :: '{' :: '\n' :: (L4 ++ (L5 ++ ('}' ::
      '\n' :: rest))))))) := by
    simp only [writeDeclaration, List.append_assoc]
    rfl
  have el : utf8Len (writeDeclaration T F d) = utf8Len L1 + utf8Len L2 + 1 + utf8Len L3 + 3 + utf8Len L4 + utf8Len L5 + 2 := by
    simp only [writeDeclaration, utf8Len_append]
    rfl
  have h9 := lexes_newline hT (h.cast (j := i + utf8Len L1 + utf8Len L2 + 1 + utf8Len L3 + 1 + 1 + 1 + utf8Len L4 + utf8Len L5 +
    1 + 1) (by rw [el]; omega))
  obtain ⟨tr, hr, -, h8⟩ := lexes_symbol (c := '}') (v := .rightCurly) (by simp [symbolTable]) h9
  obtain ⟨udel, sdel, h7⟩ := lexes_deleted hT hdl hds h8
  obtain ⟨ufs, fs', sfs, bfs, h6⟩ := lexes_fields hT hS d.fields hfs true false _ _ _ h7
  obtain ⟨tl, hl, -, h5⟩ := lexes_symbol (c := '{') (v := .leftCurly) (by simp [symbolTable]) (lexes_newline hT h6)
  obtain ⟨tn, hvn, -, h4⟩ := lexes_name hT hn (sepFirst_cons (by simp)) (lexes_space hT h5)
  obtain ⟨tk, hk, hkp, h3⟩ := keyword_decl hT d.variant (sepFirst_cons (by simp)) (lexes_space hT h4)
  have hknc : ∀ ps, tk.variant ≠ .comment ps := by
    intro ps
    rcases hk with ⟨hk, -⟩ | ⟨hk, -⟩ <;> rw [hk] <;> simp
  by_cases hcn : d.comment = []
  · have hL1 : L1 = [] := by show writeComment F [] d.comment = []; rw [hcn]; rfl
    refine ⟨[] ++ [tk, tn, tl] ++ ufs ++ udel ++ [tr], _, .mk .absent hk hvn hl sfs sdel hr,
      ⟨by rw [hcn]; rfl, rfl, rfl, bfs, rfl⟩, ?_, ?_, ?_⟩
    · intro t ht
      simp at ht
      subst ht
      rw [hkp, hL1]; rfl
    · intro t u us' ps he hv
      simp at he
      rw [← he.1] at hv
      exact absurd hv (hknc ps)
    · rw [e, hL1]
      rw [hL1] at h3
      simpa [utf8Len] using h3
  · obtain ⟨t, hv, hst, hsp, h1⟩ := lexes_comment hT (ind := []) (by simp) (w := marginWidth) rfl hcn hc
      (noHash_word hT hS (b := []) (by simp) (keyword_first hT d.variant _)) h3
    refine ⟨[t] ++ [tk, tn, tl] ++ ufs ++ udel ++ [tr], _, .mk (.present hv) hk hvn hl sfs sdel hr,
      ⟨rfl, rfl, rfl, bfs, rfl⟩, ?_, ?_, ?_⟩
    · intro t' ht
      simp at ht
      subst ht
      rw [hst]; rfl
    · intro t' u us' ps he hv
      simp at he
      rw [← he.1, ← he.2.1, hkp]
      exact hsp.symm
    · rw [e]
      simpa using h1

theorem lexes_decls {T : CharTable} (hT : T.Ascii) (hS : T.SpaceApart) {F : Nat → Str → Str} : ∀ (ds : List Declaration),
    (∀ d ∈ ds, DeclOk T F d) → ∀ (skip : Bool) (i : Nat),
    ∃ us ds', Many DeclSyntax us ds' ∧ Each (DeclBack T F) ds ds' ∧
      (∀ t, us.head? = some t → t.sourceRange.start = if skip then i else i + 1) ∧
      (∀ t u us' ps, us = t :: u :: us' → t.variant = .comment ps → u.sourceRange.start = t.sourceRange.stop + 1) ∧
      Lexes T i (writeDeclarations T F skip ds) us
  | [], _, skip, i => ⟨[], [], .nil, .nil, by simp, by simp, .nil (by simp [writeDeclarations])⟩
  | d :: ds, hd, skip, i => by
    rw [writeDeclarations]
    obtain ⟨us, ds', s1, b1, -, -, h1⟩ := lexes_decls hT hS ds (fun x hx => hd x (by simp [hx])) false
      ((if skip then i else i + 1) + utf8Len (writeDeclaration T F d))
    obtain ⟨us0, d', s0, b0, hp, hq, h2⟩ := lexes_decl hT hS (hd d (by simp)) h1
    refine ⟨us0 ++ us, d' :: ds', .cons s0 s1, .cons b0 b1, ?_, ?_, ?_⟩
    · intro t ht
      refine hp t ?_
      have : us0 ≠ [] := by cases s0; simp
      cases us0 with
      | nil => exact absurd rfl this
      | cons x xs => simpa using ht
    · intro t u us' ps he hv
      have : ∃ a b l, us0 = a :: b :: l := by
        cases s0 with
        | @mk c k n l fs del r _ _ _ _ _ hc =>
          cases hc with
          | absent => exact ⟨_, _, _, rfl⟩
          | present => exact ⟨_, _, _, rfl⟩
      obtain ⟨a, b, l, rfl⟩ := this
      simp at he
      refine hq t u l ps ?_ hv
      rw [he.1, he.2.1]
    · cases skip with
      | true => simpa using h2
      | false =>
        have := lexes_newline hT h2
        simpa using this

/-! ## Imports -/

/-- What an import becomes by formatting and parsing. -/
def ImportBack (T : CharTable) (i i' : Identifier × Import) : Prop :=
  i'.2.path = i.2.path ∧ ((∃ stem, fileStem i.2.path = some stem ∧ SameName (Identifier.ofStr T stem) i.1 ∧
    i'.1 = Identifier.ofStr T stem) ∨ (¬ NamedAfterFile T i.1 i.2.path ∧ i'.1 = Identifier.ofStr T i.1.snakeCase))

theorem named_iff {T : CharTable} {n : Identifier} {p : Str} :
    (fileStem p).map (fun stem => (Identifier.ofStr T stem).same n) = some true ↔ NamedAfterFile T n p := by
  cases h : fileStem p <;> simp [NamedAfterFile, SameName, h]

theorem lexes_path {T : CharTable} {i : Nat} {p rest : Str} {ts : List Token} (hq : '\'' ∉ p)
    (h : Lexes T (i + utf8Len ('\'' :: p ++ ['\''])) rest ts) :
    ∃ t, t.variant = .path p ∧ Lexes T i (('\'' :: p ++ ['\'']) ++ rest) (t :: ts) :=
  ⟨_, rfl, lexes_tok (.path hq) trivial h⟩

theorem lexes_import {T : CharTable} (hT : T.Ascii) {n : Identifier} {imp : Import} (hq : '\'' ∉ imp.path)
    (hn : NamedAfterFile T n imp.path ∨ SnakePlain T n) {i : Nat} {rest : Str} {ts : List Token}
    (h : Lexes T (i + utf8Len (writeImport T n imp)) rest ts) :
    ∃ us i', ImportSyntax T us i' ∧ ImportBack T (n, imp) i' ∧ (∀ t, us.head? = some t → t.variant = .import) ∧
      Lexes T i (writeImport T n imp ++ rest) (us ++ ts) := by
  by_cases hnf : NamedAfterFile T n imp.path
  · have e : writeImport T n imp = "import".toList ++ (' ' :: (('\'' :: imp.path ++ ['\'']) ++ ['\n'])) := by
      unfold writeImport
      rw [if_pos (named_iff.mpr hnf)]
      simp
    rw [e] at h ⊢
    have h1 := lexes_newline hT (h.cast (j := i + utf8Len "import".toList + 1 + utf8Len ('\'' :: imp.path ++ ['\'']) + 1)
      (by rw [utf8Len_append, utf8Len_cons, utf8Len_append]; show i + (_ + (1 + (_ + 1))) = _; omega))
    obtain ⟨tp, htp, h2⟩ := lexes_path hq h1
    obtain ⟨t, ht, -, h3⟩ := lexes_keyword hT (k := "import") (v := .import) (by simp [keywordTable])
      (sepFirst_cons (by simp)) (lexes_space hT h2)
    obtain ⟨stem, hs1, hs2⟩ := hnf
    refine ⟨_, _, .unnamed ht htp hs1, ⟨rfl, .inl ⟨stem, hs1, hs2, rfl⟩⟩, ?_, ?_⟩
    · rintro t' ht'
      simp at ht'
      subst ht'; exact ht
    · simpa using h3
  · have hn := hn.resolve_left hnf
    have e : writeImport T n imp = "import".toList ++ (' ' :: (('\'' :: imp.path ++ ['\'']) ++ (' ' :: ("as".toList ++
        (' ' :: (n.snakeCase ++ ['\n'])))))) := by
      unfold writeImport
      rw [if_neg (fun h => hnf (named_iff.mp h))]
      simp
    rw [e] at h ⊢
    have h1 := lexes_newline hT (h.cast (j := i + utf8Len "import".toList + 1 + utf8Len ('\'' :: imp.path ++ ['\'']) + 1 +
      utf8Len "as".toList + 1 + utf8Len n.snakeCase + 1)
      (by rw [utf8Len_append, utf8Len_cons, utf8Len_append _ (' ' :: _), utf8Len_cons, utf8Len_append "as".toList, utf8Len_cons,
            utf8Len_append n.snakeCase]
          show i + (_ + (1 + (_ + (1 + (_ + (1 + (_ + 1))))))) = _
          omega))
    obtain ⟨tn, hvn, -, h2⟩ := lexes_name hT hn (sepFirst_cons (by simp)) h1
    obtain ⟨ta, hta, -, h3⟩ := lexes_keyword hT (k := "as") (v := .as) (by simp [keywordTable])
      (sepFirst_cons (by simp)) (lexes_space hT h2)
    obtain ⟨tp, htp, h4⟩ := lexes_path hq (lexes_space hT h3)
    obtain ⟨t, ht, -, h5⟩ := lexes_keyword hT (k := "import") (v := .import) (by simp [keywordTable])
      (sepFirst_cons (by simp)) (lexes_space hT h4)
    refine ⟨_, _, .named ht htp hta hvn, ⟨rfl, .inr ⟨hnf, rfl⟩⟩, ?_, ?_⟩
    · rintro t' ht'
      simp at ht'
      subst ht'; exact ht
    · simpa using h5

theorem lexes_imports {T : CharTable} (hT : T.Ascii) : ∀ (is : List (Identifier × Import)),
    (∀ i ∈ is, '\'' ∉ i.2.path ∧ (NamedAfterFile T i.1 i.2.path ∨ SnakePlain T i.1)) → ∀ (i : Nat) (rest : Str)
    (ts : List Token), Lexes T (i + utf8Len (is.flatMap (fun i => writeImport T i.1 i.2))) rest ts →
    ∃ us is', Many (ImportSyntax T) us is' ∧ Each (ImportBack T) is is' ∧ (∀ t, us.head? = some t → t.variant = .import) ∧
      Lexes T i (is.flatMap (fun i => writeImport T i.1 i.2) ++ rest) (us ++ ts)
  | [], _, i, rest, ts, h => ⟨[], [], .nil, .nil, by simp, h⟩
  | (n, imp) :: is, hi, i, rest, ts, h => by
    rw [List.flatMap_cons] at h ⊢
    have h1 := h.cast (j := i + utf8Len (writeImport T n imp) + utf8Len (is.flatMap (fun i => writeImport T i.1 i.2)))
      (by rw [utf8Len_append]; dsimp only; omega)
    obtain ⟨us, is', s1, b1, -, h2⟩ := lexes_imports hT is (fun x hx => hi x (by simp [hx])) _ _ _ h1
    obtain ⟨hq, hn⟩ := hi (n, imp) (by simp)
    obtain ⟨us0, i', s0, b0, hv, h3⟩ := lexes_import hT hq hn h2
    refine ⟨us0 ++ us, i' :: is', .cons s0 s1, .cons b0 b1, ?_, by simpa using h3⟩
    intro t ht
    refine hv t ?_
    have : us0 ≠ [] := by cases s0 <;> simp
    cases us0 with
    | nil => exact absurd rfl this
    | cons x xs => simpa using ht

/-! ## Schemas -/

/-- What a schema becomes by formatting and parsing. -/
structure SchemaBack (T : CharTable) (F : Nat → Str → Str) (s s' : Schema) : Prop where
  comment : s'.comment = s.comment.map (refill T F marginWidth)
  imports : Each (ImportBack T) s.imports s'.imports
  declarations : Each (DeclBack T F) s.declarations s'.declarations

theorem each_pairwise {α β : Type} {R : α → β → Prop} {P : α → α → Prop} {Q : β → β → Prop} {as : List α} {bs : List β}
    (h : Each R as bs) (hp : as.Pairwise P) (hpq : ∀ a ∈ as, ∀ b, R a b → ∀ a' ∈ as, ∀ b', R a' b' → P a a' → Q b b') :
    bs.Pairwise Q := by
  induction h with
  | nil => exact .nil
  | @cons a b as bs hab h ih =>
    obtain ⟨h1, h2⟩ := List.pairwise_cons.mp hp
    refine .cons ?_ (ih h2 (fun a ha b hb a' ha' b' hb' => hpq a (by simp [ha]) b hb a' (by simp [ha']) b' hb'))
    intro b' hb'
    have : ∃ a' ∈ as, R a' b' := by
      clear ih h1 h2 hp hpq
      induction h with
      | nil => cases hb'
      | cons h0 _ ih =>
        rcases List.mem_cons.mp hb' with rfl | hb'
        · exact ⟨_, by simp, h0⟩
        · obtain ⟨a', ha', hr⟩ := ih hb'
          exact ⟨a', by simp [ha'], hr⟩
    obtain ⟨a', ha', hr⟩ := this
    exact hpq a (by simp) b hab a' (by simp [ha']) b' hr (h1 a' ha')

theorem each_nil_right {α β : Type} {R : α → β → Prop} {as : List α} (h : Each R as []) : as = [] := by
  cases h; rfl

/-- Names of imports keep their order. -/
def ImportsKept (T : CharTable) (s : Schema) : Prop :=
  ∀ i ∈ s.imports, NamedAfterFile T i.1 i.2.path ∨ SameName i.1 (Identifier.ofStr T i.1.snakeCase)

theorem importBack_name {T : CharTable} {i i' : Identifier × Import} (h : ImportBack T i i')
    (hk : NamedAfterFile T i.1 i.2.path ∨ SameName i.1 (Identifier.ofStr T i.1.snakeCase)) : i'.1.snakeCase = i.1.snakeCase := by
  rcases h.2 with ⟨stem, -, h1, h2⟩ | ⟨h1, h2⟩
  · rw [h2]
    simpa [SameName, Identifier.same] using h1
  · have := hk.resolve_left h1
    rw [h2]
    have : i.1.snakeCase = (Identifier.ofStr T i.1.snakeCase).snakeCase := by simpa [SameName, Identifier.same] using this
    exact this.symm

theorem format_parses {T : CharTable} (hT : T.Ascii) (hS : T.SpaceApart) {F : Nat → Str → Str} {s : Schema}
    (hs : Formattable T F (SnakePlain T) (PascalPlain T) s) (hk : ImportsKept T s) :
    ∃ toks s', tokenize T (format T F s) = .ok toks ∧ parse T toks = .ok s' ∧ SchemaBack T F s s' := by
  let L1 := writeComment F [] s.comment
  let L2 : Str := if !s.comment.isEmpty && (!s.imports.isEmpty || !s.declarations.isEmpty) then ['\n'] else []
  let L3 := s.imports.flatMap (fun i => writeImport T i.1 i.2)
  have e : format T F s = L1 ++ (L2 ++ (L3 ++ writeDeclarations T F s.imports.isEmpty s.declarations)) := by
    simp only [format, List.append_assoc]
    rfl
  have hL2 : ∀ c ∈ L2, T.isWhitespace c = true := by
    intro c hc
    have hc : c ∈ (if !s.comment.isEmpty && (!s.imports.isEmpty || !s.declarations.isEmpty) then ['\n'] else []) := hc
    split at hc
    · simp at hc; rw [hc]; exact newline_ws hT
    · cases hc
  obtain ⟨ud, ds', sd, bd, hp, hq, h3⟩ := lexes_decls hT hS s.declarations (fun d hd => by
    obtain ⟨h1, h2, h3, h4, h5⟩ := hs.declarations d hd
    exact ⟨h1, h2, h3, h4, h5⟩) s.imports.isEmpty (0 + utf8Len L1 + utf8Len L2 + utf8Len L3)
  obtain ⟨ui, is', si, bi, hvi, h2⟩ := lexes_imports hT s.imports (fun i hi => ⟨hs.paths i hi, hs.imports i hi⟩) _ _ _ h3
  have h1 := lexes_gap hL2 h2
  have hnames : ∀ a ∈ s.imports, ∀ b, ImportBack T a b → b.1.snakeCase = a.1.snakeCase :=
    fun a ha b hb => importBack_name hb (hk a ha)
  have hsorted : is'.Pairwise (fun a b => strBefore a.1.snakeCase b.1.snakeCase = true) := by
    refine each_pairwise bi hs.sorted ?_
    intro a ha b hb a' ha' b' hb' h
    rw [hnames a ha b hb, hnames a' ha' b' hb']; exact h
  have hnodup : (is'.map (fun i => i.1.snakeCase)).Nodup := by
    refine List.pairwise_map.mpr (hsorted.imp ?_)
    intro a b h he
    rw [he, strBefore_irrefl] at h; cases h
  by_cases hcn : s.comment = []
  · have hL1 : L1 = [] := by show writeComment F [] s.comment = []; rw [hcn]; rfl
    have hL2 : L2 = [] := by show (if _ then _ else _) = _; rw [hcn]; rfl
    have hsyn : SchemaSyntax T ([] ++ ui ++ ud) ⟨[], is', ds'⟩ := by
      refine .mk .absent si hnodup (List.Perm.refl _) hsorted sd (by simp) ?_
      intro t u us ps _ he hv hsep
      cases si with
      | cons h0 _ =>
        obtain ⟨a, b, l, rfl, hab⟩ := import_first h0
        simp at he
        rw [← he.1, hab] at hv; cases hv
      | nil =>
        have := hq t u us ps (by simpa using he) hv
        unfold Separated at hsep
        omega
    refine ⟨_, _, (tokenize_iff hT hS _ _).mpr ?_, parse_iff.mpr hsyn, ⟨by rw [hcn]; rfl, bi, bd⟩⟩
    rw [e, hL1, hL2]
    rw [hL1, hL2] at h1
    simpa [utf8Len] using h1
  · have hNo : NoHash T (L2 ++ (L3 ++ writeDeclarations T F s.imports.isEmpty s.declarations)) := by
      by_cases hx : (!s.imports.isEmpty || !s.declarations.isEmpty) = true
      · have : L2 = ['\n'] := by
          show (if _ then _ else _) = _
          rw [hx]; simp [hcn]
        rw [this]
        exact noHash_newline _
      · have : L2 = [] := by
          show (if _ then _ else _) = _
          rw [if_neg]; simp [hx]
        rw [this]
        simp at hx
        have e3 : L3 = [] := by show s.imports.flatMap _ = []; rw [hx.1]; rfl
        rw [e3, hx.2]
        exact noHash_nil
    obtain ⟨t, hv, hst, hsp, h0⟩ := lexes_comment hT (ind := []) (by simp) (w := marginWidth) rfl hcn hs.comment hNo h1
    have hsyn : SchemaSyntax T ([t] ++ ui ++ ud) ⟨s.comment.map (refill T F marginWidth), is', ds'⟩ := by
      refine .mk (.present hv) si hnodup (List.Perm.refl _) hsorted sd ?_ (by simp)
      intro t' u us he ht hk
      simp at ht
      subst ht
      cases si with
      | cons hi0 _ =>
        obtain ⟨a, b, l, rfl, hab⟩ := import_first hi0
        simp at he
        rw [← he.1, hab] at hk; simp at hk
      | nil =>
        have him := each_nil_right bi
        rw [List.nil_append] at he
        have hst' := hp u (by rw [he]; rfl)
        have hdn : s.declarations ≠ [] := by
          intro hdn
          rw [hdn] at bd
          cases bd
          cases sd
          cases he
        have e2 : L2 = ['\n'] := by
          show (if _ then _ else _) = _
          simp [hcn, hdn]
        rw [him] at hst'
        have e3 : L3 = [] := by show s.imports.flatMap _ = []; rw [him]; rfl
        rw [e2, e3] at hst'
        have hn1 : utf8Len ['\n'] = 1 := rfl
        have hn2 : utf8Len ([] : Str) = 0 := rfl
        rw [hn1, hn2] at hst'
        simp only [List.isEmpty_nil, if_true] at hst'
        have hsp : t.sourceRange.stop + 1 = 0 + utf8Len L1 := hsp
        show t.sourceRange.stop + 1 < u.sourceRange.start
        omega
    refine ⟨_, _, (tokenize_iff hT hS _ _).mpr ?_, parse_iff.mpr hsyn, ⟨rfl, bi, bd⟩⟩
    rw [e]
    simpa using h0

end Typical
