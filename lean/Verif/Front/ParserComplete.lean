import Verif.Front.ParserSound

/-!
# The parser is complete: it accepts each sentence of the grammar
-/

namespace Typical

theorem consume_ok {toks : List Token} {v : TokVariant} {what : String} {pos : Nat} {errors : List ParseErr} {t : Token}
    {rest : List Token} (h : toks.drop pos = t :: rest) (hv : t.variant = v) :
    consume toks v what pos errors = .some () (pos + 1) errors := by
  simp [consume, (drop_cons h).1, hv]

theorem consumeIdentifier_ok {toks : List Token} {what : String} {pos : Nat} {errors : List ParseErr} {t : Token}
    {rest : List Token} {n : Identifier} (h : toks.drop pos = t :: rest) (hv : t.variant = .identifier n) :
    consumeIdentifier toks what pos errors = .some n (pos + 1) errors :=
  consumeIdentifier_some (drop_cons h).1 hv

theorem consumeInteger_ok {toks : List Token} {what : String} {pos : Nat} {errors : List ParseErr} {t : Token}
    {rest : List Token} {n : Nat} (h : toks.drop pos = t :: rest) (hv : t.variant = .integer n) :
    consumeInteger toks what pos errors = .some n (pos + 1) errors := by
  obtain ⟨r, v⟩ := t
  dsimp only at hv
  subst hv
  unfold consumeInteger
  rw [(drop_cons h).1]

theorem consumePath_ok {toks : List Token} {what : String} {pos : Nat} {errors : List ParseErr} {t : Token}
    {rest : List Token} {p : Str} (h : toks.drop pos = t :: rest) (hv : t.variant = .path p) :
    consumePath toks what pos errors = .some p (pos + 1) errors := by
  obtain ⟨r, v⟩ := t
  dsimp only at hv
  subst hv
  unfold consumePath
  rw [(drop_cons h).1]

theorem variantAt_ok {toks : List Token} {pos : Nat} {t : Token} {rest : List Token} (h : toks.drop pos = t :: rest) :
    variantAt toks pos = some t.variant := variantAt_of_get (drop_cons h).1

theorem spanTokens_ok {toks ts rest : List Token} {pos pos' : Nat} (h : toks.drop pos = ts ++ rest) (hne : ts ≠ [])
    (hp : pos' = pos + ts.length) : spanTokens toks pos pos' = span ts := by
  rw [hp]; exact spanTokens_eq h hne

theorem parseType_ok {toks ts : List Token} {ty : SchemaType} (h : TypeSyntax ts ty) : ∀ (fuel pos : Nat)
    (errors : List ParseErr) (next : Token) (rest : List Token), ts.length ≤ fuel → toks.drop pos = ts ++ next :: rest →
    next.variant ≠ .dot → parseType toks fuel pos errors = .some ty (pos + ts.length) errors := by
  induction h with
  | @keyword t v hv =>
    intro fuel pos errors next rest hf hd hn
    cases fuel with
    | zero => simp at hf
    | succ fuel =>
      have hne : t.variant ≠ .leftSquare := by
        intro h
        rw [h] at hv
        simp [keywordTypes] at hv
      rw [parseType_other (variantAt_ok hd) hne, (keywordType?_iff _ _).mpr hv]
      dsimp only
      rw [spanTokens_ok (pos' := pos + 1) (ts := [t]) hd (by simp) rfl]
      rfl
  | @name t n hv =>
    intro fuel pos errors next rest hf hd hn
    cases fuel with
    | zero => simp at hf
    | succ fuel =>
      have hnext := (drop_cons hd).2.1
      have hlen := (drop_cons hnext).2.2
      have hlt := (drop_cons hd).2.2
      rw [parseType_other (variantAt_ok hd) (by rw [hv]; simp), hv]
      dsimp only [keywordType?]
      unfold parseCustom
      rw [if_neg (by omega), if_neg]
      · rw [consumeIdentifier_ok hd hv]
        dsimp only [PRes.bind]
        rw [spanTokens_ok (pos' := pos + 1) (ts := [t]) hd (by simp) rfl]
        rfl
      · rintro ⟨-, h⟩
        rw [variantAt_ok hnext] at h
        exact hn (Option.some.inj h)
  | @qualified a d t m n ha hdv ht =>
    intro fuel pos errors next rest hf hd hn
    cases fuel with
    | zero => simp at hf
    | succ fuel =>
      have h1 := (drop_cons hd).2.1
      have h2 := (drop_cons h1).2.1
      have h3 := (drop_cons h2).2.1
      have hlen := (drop_cons h3).2.2
      rw [parseType_other (variantAt_ok hd) (by rw [ha]; simp), ha]
      dsimp only [keywordType?]
      unfold parseCustom
      rw [if_neg (by omega), if_pos ⟨by omega, by rw [variantAt_ok h1, hdv]⟩, consumeIdentifier_ok hd ha]
      dsimp only [PRes.bind]
      rw [consumeIdentifier_ok h2 ht]
      dsimp only
      rw [spanTokens_ok (pos' := pos + 1 + 1 + 1) (ts := [a, d, t]) hd (by simp) rfl]
      rfl
  | @array l ts r inner hl hts hr ih =>
    intro fuel pos errors next rest hf hd hn
    cases fuel with
    | zero => simp at hf
    | succ fuel =>
      have hd' : toks.drop pos = l :: (ts ++ r :: next :: rest) := by simpa using hd
      have h1 := (drop_cons hd').2.1
      rw [parseType, variantAt_ok hd', hl]
      dsimp only
      rw [ih fuel (pos + 1) errors r (next :: rest) (by simp at hf; omega) h1 (by rw [hr]; simp)]
      dsimp only [PRes.bind]
      rw [consume_ok (drop_append h1) hr]
      dsimp only
      have e : pos + 1 + ts.length + 1 = pos + (l :: ts ++ [r]).length := by simp; omega
      rw [spanTokens_ok (ts := l :: ts ++ [r]) hd (by simp) e, e]

theorem comment_ok {toks ts rest : List Token} {pos : Nat} {ps : List Str} (h : CommentSyntax ts ps)
    (hd : toks.drop pos = ts ++ rest) (hr : ∀ t qs, rest.head? = some t → t.variant ≠ .comment qs) :
    parseComment toks pos = (ps, pos + ts.length) := by
  cases h with
  | absent =>
    unfold parseComment
    cases rest with
    | nil =>
      have : variantAt toks pos = none := by
        have : toks.length ≤ pos := by simpa using hd
        simp [variantAt, this]
      rw [this]
      rfl
    | cons t rest =>
      rw [variantAt_ok (t := t) hd]
      have := hr t
      cases hv : t.variant <;> first | rfl | exact absurd hv (this _ rfl)
  | @present t ps hv =>
    unfold parseComment
    rw [variantAt_ok (t := t) hd, hv]
    rfl

theorem rule_ok {toks ts rest : List Token} {pos : Nat} {rule : Rule} {n : Token} {name : Identifier}
    (h : RuleSyntax ts rule) (hd : toks.drop pos = ts ++ n :: rest) (hn : n.variant = .identifier name) :
    parseRule toks pos = (rule, pos + ts.length) := by
  unfold parseRule
  cases h with
  | required => rw [variantAt_ok (t := n) hd, hn]; rfl
  | @asymmetric t hv => rw [variantAt_ok (t := t) hd, hv]; rfl
  | @optional t hv => rw [variantAt_ok (t := t) hd, hv]; rfl

theorem fieldType_ok {toks ts rest : List Token} {pos : Nat} {errors : List ParseErr} {type : SchemaType} {e : Token}
    (h : FieldTypeSyntax e ts type) (hd : toks.drop pos = ts ++ e :: rest) (he : e.variant = .equals) :
    parseFieldType toks pos errors = .some type (pos + ts.length) errors := by
  unfold parseFieldType
  cases h with
  | absent =>
    rw [if_neg (by rw [variantAt_ok (t := e) hd, he]; simp), spanTokens_empty (e := e) hd]
    rfl
  | @present c us ty hc hty =>
    rw [if_pos (by rw [variantAt_ok (t := c) hd, hc]), consume_ok (t := c) hd hc]
    dsimp only [PRes.bind]
    have h1 : toks.drop (pos + 1) = us ++ e :: rest := (drop_cons (t := c) hd).2.1
    have hne : ∃ u us', us ++ e :: rest = u :: us' := by cases us <;> exact ⟨_, _, rfl⟩
    obtain ⟨u, us', hu⟩ := hne
    rw [if_neg (by rw [variantAt_ok (h1.trans hu)]; simp)]
    rw [parseType_ok hty (toks.length + 1) (pos + 1) errors e rest ?_ h1 (by rw [he]; simp)]
    · rw [List.length_cons]; congr 1; omega
    · have := congrArg List.length h1
      simp at this
      omega

theorem field_ok {toks ts rest : List Token} {pos : Nat} {errors : List ParseErr} {f : Field} (h : FieldSyntax ts f)
    (hd : toks.drop pos = ts ++ rest) : parseField toks pos errors = .some f (pos + ts.length) errors := by
  cases h with
  | @mk c r n ty e k comment rule name type index hc hr hn hty he hk =>
    have d0 : toks.drop pos = c ++ (r ++ n :: ty ++ [e, k] ++ rest) := by rw [hd]; simp
    have d1 : toks.drop (pos + c.length) = r ++ n :: (ty ++ e :: k :: rest) := by rw [drop_append d0]; simp
    have d2 := drop_append d1
    have d3 := (drop_cons d2).2.1
    have d4 := drop_append d3
    have d5 := (drop_cons d4).2.1
    unfold parseField
    rw [comment_ok hc d0 (by
      intro t qs ht
      cases hr with
      | required => simp at ht; subst ht; rw [hn]; simp
      | asymmetric hv => simp at ht; subst ht; rw [hv]; simp
      | optional hv => simp at ht; subst ht; rw [hv]; simp)]
    dsimp only
    rw [rule_ok hr d1 hn]
    dsimp only
    rw [consumeIdentifier_ok d2 hn]
    dsimp only [PRes.bind]
    rw [fieldType_ok hty d3 he]
    dsimp only
    rw [consume_ok d4 he]
    dsimp only
    rw [consumeInteger_ok d5 hk]
    dsimp only
    have e1 : pos + c.length + r.length + 1 + ty.length + 1 + 1 = pos + (c ++ r ++ n :: ty ++ [e, k]).length := by
      simp; omega
    rw [spanTokens_ok hd (by simp) e1, e1]

theorem field_first {ts : List Token} {f : Field} (h : FieldSyntax ts f) : ∃ t us, ts = t :: us ∧ t.variant ≠ .deleted ∧
    t.variant ≠ .rightCurly := by
  cases h with
  | @mk c r n ty e k comment rule name type index hc hr hn hty he hk =>
    cases hc with
    | absent =>
      cases hr with
      | required => exact ⟨_, _, rfl, by rw [hn]; simp, by rw [hn]; simp⟩
      | asymmetric hv => exact ⟨_, _, rfl, by rw [hv]; simp, by rw [hv]; simp⟩
      | optional hv => exact ⟨_, _, rfl, by rw [hv]; simp, by rw [hv]; simp⟩
    | present hv => exact ⟨_, _, rfl, by rw [hv]; simp, by rw [hv]; simp⟩

theorem fields_ok {toks ts : List Token} {fs : List Field} (h : Many FieldSyntax ts fs) : ∀ (fuel : Nat) (acc : List Field)
    (pos : Nat) (errors : List ParseErr) (next : Token) (rest : List Token), ts.length < fuel →
    toks.drop pos = ts ++ next :: rest → next.variant = .deleted ∨ next.variant = .rightCurly →
    parseFields toks fuel acc pos errors = .some (acc ++ fs) (pos + ts.length) errors := by
  induction h with
  | nil =>
    intro fuel acc pos errors next rest hf hd hn
    cases fuel with
    | zero => simp at hf
    | succ fuel =>
      rw [parseFields, variantAt_ok (t := next) hd]
      rcases hn with hn | hn
      · rw [hn]; simp
      · rw [hn]; simp
  | @cons us f ts fs hf1 hfs ih =>
    intro fuel acc pos errors next rest hf hd hn
    cases fuel with
    | zero => simp at hf
    | succ fuel =>
      obtain ⟨t, us', rfl, h1, h2⟩ := field_first hf1
      have hd' : toks.drop pos = (t :: us') ++ (ts ++ next :: rest) := by rw [hd]; simp
      have hv := variantAt_ok (t := t) hd'
      have step : parseFields toks (fuel + 1) acc pos errors =
          match parseField toks pos errors with
          | .panic => .panic
          | .some field pos errors => parseFields toks fuel (acc ++ [field]) pos errors
          | .none pos errors => .some acc (skipToCurly toks toks.length pos) errors := by
        rw [parseFields, hv]
        generalize t.variant = v at h1 h2
        cases v <;> first | rfl | exact absurd rfl h1 | exact absurd rfl h2
      rw [step, field_ok hf1 hd']
      dsimp only
      rw [ih fuel (acc ++ [f]) _ errors next rest (by simp at hf; omega) (drop_append hd') hn]
      simp
      omega

theorem perm_sorted_nat {a b : List Nat} (h : a.Perm b) (ha : a.Pairwise (· < ·)) (hb : b.Pairwise (· < ·)) : a = b :=
  h.eq_of_pairwise (fun _ _ _ _ h1 h2 => absurd (Nat.lt_trans h1 h2) (Nat.lt_irrefl _)) ha hb

theorem indices_ok {toks : List Token} : ∀ (ks : List Token) (ns : List Nat) (fuel : Nat) (acc : List Nat)
    (pos : Nat) (errors : List ParseErr) (next : Token) (rest : List Token), ks.map Token.variant = ns.map TokVariant.integer →
    (∀ n ∈ ns, n ∉ acc) → ns.Nodup → acc.Pairwise (· < ·) → ks.length < fuel →
    toks.drop pos = ks ++ next :: rest → next.variant = .rightCurly →
    ∃ set, parseIndices toks fuel acc pos errors = .some set (pos + ks.length) errors ∧ set.Pairwise (· < ·) ∧
      set.Perm (acc ++ ns)
  | [], [], fuel, acc, pos, errors, next, rest, _, _, _, ha, hf, hd, hn => by
    cases fuel with
    | zero => simp at hf
    | succ fuel =>
      refine ⟨acc, ?_, ha, by simp⟩
      rw [parseIndices, variantAt_ok (t := next) hd, hn]
      rfl
  | [], n :: ns, _, _, _, _, _, _, h, _, _, _, _, _, _ => by simp at h
  | k :: ks, [], _, _, _, _, _, _, h, _, _, _, _, _, _ => by simp at h
  | k :: ks, n :: ns, fuel, acc, pos, errors, next, rest, h, hna, hnd, ha, hf, hd, hn => by
    cases fuel with
    | zero => simp at hf
    | succ fuel =>
      simp only [List.map_cons, List.cons.injEq] at h
      obtain ⟨i1, i2, i3, i4⟩ := insertIndex_spec n acc ha
      have hnn : n ∉ acc := hna n (by simp)
      have hpres : (insertIndex n acc).2 = false := by
        cases hb : (insertIndex n acc).2 with
        | false => rfl
        | true => exact absurd (i1.mp hb) hnn
      have hd1 : toks.drop (pos + 1) = ks ++ next :: rest := (drop_cons (t := k) hd).2.1
      obtain ⟨hnd1, hnd2⟩ := List.nodup_cons.mp hnd
      obtain ⟨set, h1, h2, h3⟩ := indices_ok ks ns fuel (insertIndex n acc).1 (pos + 1) errors next rest h.2 (by
        intro m hm hin
        rcases (i4 m).mp hin with he | he
        · subst he; exact hnd1 hm
        · exact hna m (by simp [hm]) he) hnd2 i2 (by simp at hf; omega) hd1 hn
      refine ⟨set, ?_, h2, ?_⟩
      · rw [parseIndices, variantAt_ok (t := k) hd, h.1]
        dsimp only
        rw [hpres]
        simp only [Bool.false_eq_true, if_false]
        rw [h1]
        simp
        omega
      · have := h3.trans ((i3 hnn).append_right ns)
        simpa using this

theorem deleted_ok {toks ts : List Token} {pos : Nat} {errors : List ParseErr} {set : List Nat} {next : Token}
    {rest : List Token} (h : DeletedSyntax ts set) (hd : toks.drop pos = ts ++ next :: rest)
    (hn : next.variant = .rightCurly) : parseDeleted toks pos errors = .some set (pos + ts.length) errors := by
  unfold parseDeleted
  cases h with
  | absent => rw [if_neg (by rw [variantAt_ok (t := next) hd, hn]; simp)]; rfl
  | @present d ks ns set hdv hks hnd hperm hsorted =>
    have hd1 : toks.drop (pos + 1) = ks ++ next :: rest := (drop_cons (t := d) hd).2.1
    have hlen : ks.length < toks.length + 1 := by
      have := congrArg List.length hd1
      simp at this; omega
    obtain ⟨set', h1, h2, h3⟩ := indices_ok ks ns (toks.length + 1) [] (pos + 1) errors next rest hks (by simp) hnd .nil
      hlen hd1 hn
    have : set' = set := perm_sorted_nat (h3.trans (by simpa using hperm.symm)) h2 hsorted
    subst this
    rw [if_pos (by rw [variantAt_ok (t := d) hd, hdv]), h1]
    simp
    omega

theorem decl_ok {toks ts rest : List Token} {pos : Nat} {errors : List ParseErr} {d : Declaration} (h : DeclSyntax ts d)
    (hd : toks.drop pos = ts ++ rest) : parseDeclaration toks pos errors = .some d (pos + ts.length) errors := by
  cases h with
  | @mk c k n l fs del r comment variant name fields deleted hc hk hn hl hfs hdel hr =>
    have d0 : toks.drop pos = c ++ (k :: n :: l :: (fs ++ (del ++ r :: rest))) := by rw [hd]; simp
    have d1 := drop_append d0
    have d2 := (drop_cons d1).2.1
    have d3 := (drop_cons d2).2.1
    have d4 := (drop_cons d3).2.1
    have d5 := drop_append d4
    have d6 := drop_append d5
    have hkc : ∀ qs, k.variant ≠ .comment qs := by
      intro qs
      rcases hk with ⟨hk, -⟩ | ⟨hk, -⟩ <;> rw [hk] <;> simp
    have hkw : parseKeyword toks (pos + c.length) errors = .some variant (pos + c.length + 1) errors := by
      unfold parseKeyword
      rw [variantAt_ok d1]
      rcases hk with ⟨hk, rfl⟩ | ⟨hk, rfl⟩ <;> rw [hk]
    unfold parseDeclaration
    rw [comment_ok hc d0 (by
      intro t qs ht
      simp at ht
      subst ht
      exact hkc qs)]
    dsimp only
    rw [hkw]
    dsimp only [PRes.bind]
    rw [consumeIdentifier_ok d2 hn]
    dsimp only
    rw [consume_ok d3 hl]
    dsimp only
    have hnext : ∃ next rest', del ++ r :: rest = next :: rest' ∧ (next.variant = .deleted ∨ next.variant = .rightCurly) := by
      cases hdel with
      | absent => exact ⟨r, rest, rfl, .inr hr⟩
      | present hdv => exact ⟨_, _, rfl, .inl hdv⟩
    obtain ⟨next, rest', hnx, hnv⟩ := hnext
    rw [fields_ok hfs (toks.length + 1) [] _ errors next rest' ?_ (by rw [d4, hnx]) hnv]
    · dsimp only
      rw [deleted_ok hdel d5 hr]
      dsimp only
      rw [consume_ok d6 hr]
      dsimp only
      have e1 : pos + c.length + 1 + 1 + 1 + fs.length + del.length + 1 =
          pos + (c ++ [k, n, l] ++ fs ++ del ++ [r]).length := by simp; omega
      rw [spanTokens_ok hd (by simp) e1, e1]
      rfl
    · have := congrArg List.length d4
      simp at this
      omega

theorem decls_ok {toks ts : List Token} {ds : List Declaration} (h : Many DeclSyntax ts ds) : ∀ (fuel : Nat)
    (acc : List Declaration) (pos : Nat) (errors : List ParseErr), ts.length < fuel → pos ≤ toks.length →
    toks.drop pos = ts → parseDeclarations toks fuel acc pos errors = .some (acc ++ ds) (pos + ts.length) errors := by
  induction h with
  | nil =>
    intro fuel acc pos errors hf hp hd
    cases fuel with
    | zero => simp at hf
    | succ fuel =>
      have : toks.length ≤ pos := by simpa using hd
      rw [parseDeclarations, if_neg (by omega)]
      simp
  | @cons us d ts ds hd1 hds ih =>
    intro fuel acc pos errors hf hp hd
    cases fuel with
    | zero => simp at hf
    | succ fuel =>
      have hne : 0 < us.length := by cases hd1; exact List.length_pos_iff.mpr (by simp)
      have hlt : pos < toks.length := by
        have := congrArg List.length hd
        simp at this
        omega
      rw [parseDeclarations, if_pos hlt, decl_ok hd1 hd]
      dsimp only
      rw [ih fuel (acc ++ [d]) (pos + us.length) errors (by simp at hf; omega) (drop_length hd hp) (drop_append hd)]
      simp
      omega

theorem import_ok {T : CharTable} {toks ts rest : List Token} {pos : Nat} {errors : List ParseErr} {i : Identifier × Import}
    (h : ImportSyntax T ts i) (hd : toks.drop pos = ts ++ rest)
    (hr : ∀ t, rest.head? = some t → t.variant ≠ .as) :
    parseImport T toks pos errors = .some i (pos + ts.length) errors := by
  cases h with
  | @named i p a n path name hi hp ha hn =>
    have d1 := (drop_cons (t := i) hd).2.1
    have d2 := (drop_cons d1).2.1
    have d3 := (drop_cons d2).2.1
    unfold parseImport
    rw [consume_ok (t := i) hd hi]
    dsimp only [PRes.bind]
    rw [consumePath_ok d1 hp]
    dsimp only
    rw [if_pos (by rw [variantAt_ok d2, ha]), consume_ok d2 ha]
    dsimp only
    rw [consumeIdentifier_ok d3 hn]
    dsimp only
    rw [spanTokens_ok (pos' := pos + 1 + 1 + 1 + 1) hd (by simp) rfl]
    rfl
  | @unnamed i p path stem hi hp hs =>
    have d1 := (drop_cons (t := i) hd).2.1
    have d2 := (drop_cons (t := p) d1).2.1
    unfold parseImport
    rw [consume_ok (t := i) hd hi]
    dsimp only [PRes.bind]
    rw [consumePath_ok d1 hp]
    dsimp only
    have hna : variantAt toks (pos + 1 + 1) ≠ some .as := by
      cases rest with
      | nil =>
        have : toks.length ≤ pos + 1 + 1 := by simpa using d2
        simp [variantAt, this]
      | cons t rest =>
        rw [variantAt_ok (t := t) d2]
        exact fun h => hr t rfl (Option.some.inj h)
    rw [if_neg hna, hs]
    dsimp only
    rw [spanTokens_ok (pos' := pos + 1 + 1) hd (by simp) rfl]
    rfl

theorem perm_ascending {a b : List (Identifier × Import)} (h : a.Perm b) (ha : Ascending a) (hb : Ascending b) : a = b := by
  refine h.eq_of_pairwise ?_ ha hb
  intro x y _ _ h1 h2
  have := strBefore_trans h1 h2
  rw [strBefore_irrefl] at this
  cases this

theorem imports_ok {T : CharTable} {toks ts : List Token} {written : List (Identifier × Import)}
    (h : Many (ImportSyntax T) ts written) : ∀ (fuel : Nat) (acc : List (Identifier × Import)) (pos : Nat)
    (errors : List ParseErr) (rest : List Token), ts.length < fuel → toks.drop pos = ts ++ rest →
    (∀ t, rest.head? = some t → t.variant ≠ .as ∧ t.variant ≠ .import) →
    (written.map (fun i => i.1.snakeCase)).Nodup →
    (∀ w ∈ written, w.1.snakeCase ∉ acc.map (fun e => e.1.snakeCase)) → Ascending acc →
    ∃ imports, parseImports T toks fuel acc pos errors = .some imports (pos + ts.length) errors ∧ Ascending imports ∧
      imports.Perm (acc ++ written) := by
  induction h with
  | nil =>
    intro fuel acc pos errors rest hf hd hr _ _ ha
    cases fuel with
    | zero => simp at hf
    | succ fuel =>
      refine ⟨acc, ?_, ha, by simp⟩
      have hni : variantAt toks pos ≠ some .import := by
        cases rest with
        | nil =>
          have : toks.length ≤ pos := by simpa using hd
          simp [variantAt, this]
        | cons t rest =>
          rw [variantAt_ok (t := t) hd]
          exact fun h => (hr t rfl).2 (Option.some.inj h)
      rw [parseImports, if_neg hni]
      rfl
  | @cons us i ts written hi hw ih =>
    intro fuel acc pos errors rest hf hd hr hnd hna ha
    cases fuel with
    | zero => simp at hf
    | succ fuel =>
      have hd' : toks.drop pos = us ++ (ts ++ rest) := by rw [hd]; simp
      have hr' : ∀ t, (ts ++ rest).head? = some t → t.variant ≠ .as := by
        intro t ht
        cases hw with
        | nil => exact (hr t (by simpa using ht)).1
        | cons hi' _ =>
          cases hi' with
          | named h1 => simp at ht; subst ht; rw [h1]; simp
          | unnamed h1 => simp at ht; subst ht; rw [h1]; simp
      obtain ⟨t0, us0, hus, hv0⟩ : ∃ t0 us0, us = t0 :: us0 ∧ t0.variant = .import := by
        cases hi with
        | named h1 => exact ⟨_, _, rfl, h1⟩
        | unnamed h1 => exact ⟨_, _, rfl, h1⟩
      have hv : variantAt toks pos = some .import := by
        rw [hus] at hd'
        rw [variantAt_ok (t := t0) hd', hv0]
      obtain ⟨name, imp⟩ := i
      obtain ⟨i1, i2, i3, i4⟩ := insertImport_spec name imp acc ha
      have hnn := hna (name, imp) (by simp)
      have hpres : (insertImport name imp acc).2 = false := by
        cases hb : (insertImport name imp acc).2 with
        | false => rfl
        | true => exact absurd (i1.mp hb) hnn
      rw [List.map_cons] at hnd
      obtain ⟨hnd1, hnd2⟩ := List.nodup_cons.mp hnd
      obtain ⟨imports, h1, h2, h3⟩ := ih fuel (insertImport name imp acc).1 (pos + us.length) errors rest
        (by have : 0 < us.length := by rw [hus]; simp
            simp at hf; omega)
        (drop_append hd') hr hnd2 (by
          intro w hw hin
          rcases (i4 _).mp hin with he | he
          · exact hnd1 (List.mem_map.mpr ⟨w, hw, he⟩)
          · exact hna w (by simp [hw]) he) i2
      refine ⟨imports, ?_, h2, ?_⟩
      · rw [parseImports, if_pos hv, import_ok hi hd' hr']
        dsimp only
        rw [hpres]
        simp only [Bool.false_eq_true, if_false]
        rw [h1]
        simp
        omega
      · have := h3.trans ((i3 hnn).append_right written)
        simpa using this

theorem schemaComment_ok {c rest : List Token} {comment : List Str} (hc : CommentSyntax c comment)
    (h1 : ∀ t u us, rest = u :: us → c = [t] → u.variant = .struct ∨ u.variant = .choice → Separated t u)
    (h2 : ∀ t u us ps, c = [] → rest = t :: u :: us → t.variant = .comment ps →
      (u.variant = .struct ∨ u.variant = .choice) ∧ ¬ Separated t u)
    (h3 : ∀ t ps, c = [] → rest = [t] → t.variant ≠ .comment ps) :
    parseSchemaComment (c ++ rest) = (comment, c.length) := by
  cases hc with
  | @present t ps hv =>
    obtain ⟨r, v⟩ := t
    dsimp only at hv
    subst hv
    cases rest with
    | nil => rfl
    | cons u us =>
      obtain ⟨r', v'⟩ := u
      rw [List.singleton_append]
      unfold parseSchemaComment
      by_cases hk : v' = .struct ∨ v' = .choice
      · have : r.stop + 1 < r'.start := h1 _ _ us rfl rfl hk
        simp [hk, this]
      · simp [hk]
  | absent =>
    unfold parseSchemaComment
    rw [List.nil_append]
    split
    · rename_i r ps r' v us
      obtain ⟨g1, g2⟩ := h2 ⟨r, .comment ps⟩ ⟨r', v⟩ us ps rfl rfl rfl
      have : ¬ (r.stop + 1 < r'.start) := g2
      dsimp only at g1
      simp [g1, this]
    · rename_i r ps
      exact absurd rfl (h3 ⟨r, .comment ps⟩ ps rfl rfl)
    · rfl

theorem decl_first {ts : List Token} {d : Declaration} (h : DeclSyntax ts d) :
    (∃ t us, ts = t :: us ∧ (t.variant = .struct ∨ t.variant = .choice)) ∨
      ∃ t u us ps, ts = t :: u :: us ∧ t.variant = .comment ps ∧ (u.variant = .struct ∨ u.variant = .choice) := by
  cases h with
  | @mk c k n l fs del r comment variant name fields deleted hc hk =>
    have hk' : k.variant = .struct ∨ k.variant = .choice := by
      rcases hk with ⟨h, -⟩ | ⟨h, -⟩
      · exact .inl h
      · exact .inr h
    cases hc with
    | absent => exact .inl ⟨k, _, rfl, hk'⟩
    | present hv => exact .inr ⟨_, k, _, _, rfl, hv, hk'⟩

theorem many_decl_first {ts : List Token} {ds : List Declaration} (h : Many DeclSyntax ts ds) :
    ts = [] ∨ (∃ t us, ts = t :: us ∧ (t.variant = .struct ∨ t.variant = .choice)) ∨
      ∃ t u us ps, ts = t :: u :: us ∧ t.variant = .comment ps ∧ (u.variant = .struct ∨ u.variant = .choice) := by
  cases h with
  | nil => exact .inl rfl
  | cons hd _ =>
    rcases decl_first hd with ⟨t, us, rfl, h⟩ | ⟨t, u, us, ps, rfl, h1, h2⟩
    · exact .inr (.inl ⟨t, _, rfl, h⟩)
    · exact .inr (.inr ⟨t, u, _, ps, rfl, h1, h2⟩)

theorem import_first {T : CharTable} {ts : List Token} {i : Identifier × Import} (h : ImportSyntax T ts i) :
    ∃ t u us, ts = t :: u :: us ∧ t.variant = .import := by
  cases h with
  | named h1 => exact ⟨_, _, _, rfl, h1⟩
  | unnamed h1 => exact ⟨_, _, _, rfl, h1⟩

theorem schemaComment_syntax {T : CharTable} {c is ds : List Token} {comment : List Str}
    {written : List (Identifier × Import)} {decls : List Declaration} (hc : CommentSyntax c comment)
    (hw : Many (ImportSyntax T) is written) (hds : Many DeclSyntax ds decls)
    (h1 : ∀ t u us, is ++ ds = u :: us → c = [t] → u.variant = .struct ∨ u.variant = .choice → Separated t u)
    (h2 : ∀ t u us ps, c = [] → is ++ ds = t :: u :: us → t.variant = .comment ps → ¬ Separated t u) :
    parseSchemaComment (c ++ is ++ ds) = (comment, c.length) := by
  rw [List.append_assoc]
  refine schemaComment_ok hc h1 ?_ ?_
  · intro t u us ps g1 g2 g3
    refine ⟨?_, h2 t u us ps g1 g2 g3⟩
    cases hw with
    | nil =>
      rcases many_decl_first hds with hn | ⟨t', us', hn, hv⟩ | ⟨t', u', us', ps', hn, hv, hk⟩
      · rw [hn] at g2; simp at g2
      · rw [List.nil_append, hn] at g2
        cases g2
        rw [g3] at hv; simp at hv
      · rw [List.nil_append, hn] at g2
        cases g2
        exact hk
    | cons hi _ =>
      obtain ⟨t', u', us', hn, hv⟩ := import_first hi
      rw [hn] at g2
      simp at g2
      rw [← g2.1, hv] at g3
      cases g3
  · intro t ps g1 g2 g3
    cases hw with
    | nil =>
      rcases many_decl_first hds with hn | ⟨t', us', hn, hv⟩ | ⟨t', u', us', ps', hn, hv, hk⟩
      · rw [hn] at g2; simp at g2
      · rw [List.nil_append, hn] at g2
        cases g2
        rw [g3] at hv; simp at hv
      · rw [List.nil_append, hn] at g2
        cases g2
    | cons hi _ =>
      obtain ⟨t', u', us', hn, hv⟩ := import_first hi
      rw [hn] at g2
      simp at g2

theorem parse_complete {T : CharTable} {toks : List Token} {schema : Schema} (h : SchemaSyntax T toks schema) :
    parse T toks = .ok schema := by
  cases h with
  | @mk c is ds comment written imports decls hc hw hnd hperm hsorted hds h1 h2 =>
    have hsc := schemaComment_syntax hc hw hds h1 h2
    have d0 : (c ++ is ++ ds).drop c.length = is ++ ds := by simp
    have hrest : ∀ t, ds.head? = some t → t.variant ≠ .as ∧ t.variant ≠ .import := by
      intro t ht
      rcases many_decl_first hds with hn | ⟨t', us', hn, hv⟩ | ⟨t', u', us', ps', hn, hv, hk⟩
      · rw [hn] at ht; simp at ht
      · rw [hn] at ht; simp at ht; subst ht
        rcases hv with hv | hv <;> rw [hv] <;> simp
      · rw [hn] at ht; simp at ht; subst ht
        rw [hv]; simp
    obtain ⟨imports', i1, i2, i3⟩ := imports_ok hw ((c ++ is ++ ds).length + 1) [] c.length [] ds (by simp; omega) d0 hrest hnd
      (by simp) .nil
    have : imports' = imports := perm_ascending (i3.trans (by simpa using hperm.symm)) i2 hsorted
    subst this
    have d1 : (c ++ is ++ ds).drop (c.length + is.length) = ds := by
      rw [← List.drop_drop, d0]; simp
    have hd := decls_ok (toks := c ++ is ++ ds) hds ((c ++ is ++ ds).length + 1) [] (c.length + is.length) [] (by simp; omega)
      (by simp) d1
    unfold parse parseSchema
    rw [hsc]
    dsimp only
    rw [i1]
    dsimp only [PRes.bind]
    rw [hd]
    dsimp only
    have hlen : c.length + is.length + ds.length = (c ++ is ++ ds).length := by simp; omega
    rw [hlen]
    simp

theorem parse_iff {T : CharTable} {toks : List Token} {schema : Schema} :
    parse T toks = .ok schema ↔ SchemaSyntax T toks schema :=
  ⟨parse_sound, parse_complete⟩

end Typical
