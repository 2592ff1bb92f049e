import Verif.Front.ParserLemmas

/-!
# The parser is sound, and panics only on a comment at the end
-/

namespace Typical

/-! ## Ordered sets and maps -/

theorem strBefore_irrefl : ∀ s : Str, strBefore s s = false
  | [] => rfl
  | c :: s => by simp [strBefore, strBefore_irrefl s]

theorem strBefore_trans : ∀ {a b c : Str}, strBefore a b = true → strBefore b c = true → strBefore a c = true
  | _, [], _, h, _ => by cases ‹Str› <;> simp [strBefore] at h
  | _, _ :: _, [], _, h => by simp [strBefore] at h
  | [], _ :: _, _ :: _, _, _ => rfl
  | x :: a, y :: b, z :: c, h1, h2 => by
    simp only [strBefore] at h1 h2 ⊢
    by_cases e1 : x = y
    · subst e1
      by_cases e2 : x = z
      · subst e2
        simp at h1 h2 ⊢
        exact strBefore_trans h1 h2
      · have : x.toNat < z.toNat := by
          apply Classical.byContradiction
          intro hn
          simp [hn, e2] at h2
        simp [this]
    · have l1 : x.toNat < y.toNat := by
        apply Classical.byContradiction
        intro hn
        simp [hn, e1] at h1
      by_cases e2 : y = z
      · subst e2
        simp [l1]
      · have l2 : y.toNat < z.toNat := by
          apply Classical.byContradiction
          intro hn
          simp [hn, e2] at h2
        have : x.toNat < z.toNat := by omega
        simp [this]

theorem strBefore_total : ∀ {a b : Str}, a ≠ b → strBefore a b = false → strBefore b a = true
  | [], [], h, _ => absurd rfl h
  | [], _ :: _, _, h => by simp [strBefore] at h
  | _ :: _, [], _, _ => rfl
  | x :: a, y :: b, h, h1 => by
    simp only [strBefore] at h1 ⊢
    by_cases e : x = y
    · subst e
      simp at h1 h ⊢
      exact strBefore_total h h1
    · have hne : x.toNat ≠ y.toNat := fun he => e (Char.toNat_inj.mp he)
      have : ¬ x.toNat < y.toNat := by
        intro hl
        simp [hl] at h1
      have : y.toNat < x.toNat := by omega
      simp [this]

theorem insertIndex_spec (n : Nat) : ∀ l : List Nat, l.Pairwise (· < ·) →
    ((insertIndex n l).2 = true ↔ n ∈ l) ∧ (insertIndex n l).1.Pairwise (· < ·) ∧
      (n ∉ l → (insertIndex n l).1.Perm (l ++ [n])) ∧ ∀ m, m ∈ (insertIndex n l).1 ↔ m = n ∨ m ∈ l
  | [], _ => by simp [insertIndex]
  | m :: l, h => by
    obtain ⟨h1, h2⟩ := List.pairwise_cons.mp h
    rw [insertIndex]
    split
    · rename_i he
      subst he
      refine ⟨by simp, h, by simp, ?_⟩
      intro k; simp
    · rename_i hne
      split
      · rename_i hlt
        refine ⟨?_, ?_, ?_, by simp⟩
        · simp only [Bool.false_eq_true, List.mem_cons, false_iff, not_or]
          exact ⟨hne, fun hm => by have := h1 n hm; omega⟩
        · refine List.pairwise_cons.mpr ⟨?_, h⟩
          intro k hk
          rcases List.mem_cons.mp hk with hk | hk
          · omega
          · have := h1 k hk; omega
        · intro _
          have : (n :: m :: l).Perm ((m :: l) ++ [n]) := (List.perm_append_singleton n (m :: l)).symm
          exact this
      · rename_i hge
        obtain ⟨i1, i2, i3, i4⟩ := insertIndex_spec n l h2
        refine ⟨?_, ?_, ?_, ?_⟩
        · dsimp only
          rw [i1]
          simp [hne]
        · dsimp only
          refine List.pairwise_cons.mpr ⟨?_, i2⟩
          intro k hk
          rcases (i4 k).mp hk with hk | hk
          · omega
          · exact h1 k hk
        · intro hn
          simp only [List.mem_cons, not_or] at hn
          exact (i3 hn.2).cons m
        · intro k
          dsimp only
          simp only [List.mem_cons, i4]
          constructor
          · rintro (h | h | h)
            · exact .inr (.inl h)
            · exact .inl h
            · exact .inr (.inr h)
          · rintro (h | h | h)
            · exact .inr (.inl h)
            · exact .inl h
            · exact .inr (.inr h)

/-- The entries are in ascending order of names. -/
def Ascending (l : List (Identifier × Import)) : Prop :=
  l.Pairwise (fun a b => strBefore a.1.snakeCase b.1.snakeCase = true)

theorem insertImport_spec (n : Identifier) (i : Import) : ∀ l : List (Identifier × Import), Ascending l →
    ((insertImport n i l).2 = true ↔ n.snakeCase ∈ l.map (fun e => e.1.snakeCase)) ∧ Ascending (insertImport n i l).1 ∧
      (n.snakeCase ∉ l.map (fun e => e.1.snakeCase) → (insertImport n i l).1.Perm (l ++ [(n, i)])) ∧
      ∀ k, k ∈ (insertImport n i l).1.map (fun e => e.1.snakeCase) ↔
        k = n.snakeCase ∨ k ∈ l.map (fun e => e.1.snakeCase)
  | [], _ => by simp [insertImport, Ascending]
  | (m, j) :: l, h => by
    obtain ⟨h1, h2⟩ := List.pairwise_cons.mp h
    rw [insertImport]
    split
    · rename_i he
      refine ⟨by simp [he], ?_, by simp [he], ?_⟩
      · exact List.pairwise_cons.mpr ⟨h1, h2⟩
      · intro k; simp [he]
    · rename_i hne
      split
      · rename_i hlt
        refine ⟨?_, ?_, ?_, by simp⟩
        · simp only [Bool.false_eq_true, List.map_cons, List.mem_cons, false_iff, not_or]
          refine ⟨hne, fun hm => ?_⟩
          obtain ⟨e, he, hk⟩ := List.mem_map.mp hm
          have := h1 e he
          dsimp only at this hk
          rw [hk] at this
          have := strBefore_trans this hlt
          rw [strBefore_irrefl] at this; cases this
        · refine List.pairwise_cons.mpr ⟨?_, h⟩
          intro e he
          rcases List.mem_cons.mp he with he | he
          · subst he; exact hlt
          · exact strBefore_trans hlt (h1 e he)
        · intro _
          exact (List.perm_append_singleton (n, i) ((m, j) :: l)).symm
      · rename_i hge
        obtain ⟨i1, i2, i3, i4⟩ := insertImport_spec n i l h2
        have hgt : strBefore m.snakeCase n.snakeCase = true := strBefore_total hne (by simpa using hge)
        refine ⟨?_, ?_, ?_, ?_⟩
        · dsimp only
          rw [i1]
          simp [hne]
        · dsimp only
          refine List.pairwise_cons.mpr ⟨?_, i2⟩
          intro e he
          have : e.1.snakeCase ∈ (insertImport n i l).1.map (fun e => e.1.snakeCase) := List.mem_map.mpr ⟨e, he, rfl⟩
          rcases (i4 _).mp this with hk | hk
          · rw [hk]; exact hgt
          · obtain ⟨e', he', hk'⟩ := List.mem_map.mp hk
            rw [← hk']; exact h1 e' he'
        · intro hn
          simp only [List.map_cons, List.mem_cons, not_or] at hn
          exact (i3 hn.2).cons (m, j)
        · intro k
          dsimp only
          simp only [List.map_cons, List.mem_cons, i4]
          constructor
          · rintro (h | h | h)
            · exact .inr (.inl h)
            · exact .inl h
            · exact .inr (.inr h)
          · rintro (h | h | h)
            · exact .inr (.inl h)
            · exact .inl h
            · exact .inr (.inr h)

/-! ## Errors which were added -/

theorem errors_grow {errors e1 e2 : List ParseErr} (h1 : ∃ more, e1 = errors ++ more) (h2 : ∃ more, e2 = e1 ++ more)
    (h : e2 = errors) : e1 = errors := by
  obtain ⟨m1, rfl⟩ := h1
  obtain ⟨m2, rfl⟩ := h2
  have := congrArg List.length h
  simp only [List.length_append] at this
  have : m1 = [] := List.eq_nil_of_length_eq_zero (by omega)
  simp [this]

theorem append_ne {errors : List ParseErr} {e : ParseErr} : errors ++ [e] ≠ errors := by
  intro h
  have := congrArg List.length h
  simp at this

/-! ## Deleted fields -/

theorem parseIndices_spec {toks : List Token} : ∀ (fuel : Nat) (acc : List Nat) (pos : Nat) (errors : List ParseErr),
    acc.Pairwise (· < ·) → pos ≤ toks.length → toks.length < fuel + pos →
    PResSpec toks pos errors (Cond errors fun ks set => ∃ ns, ks.map Token.variant = ns.map TokVariant.integer ∧
      ns.Nodup ∧ (∀ n ∈ ns, n ∉ acc) ∧ set.Perm (acc ++ ns) ∧ set.Pairwise (· < ·)) (parseIndices toks fuel acc pos errors)
  | 0, _, pos, _, _, hp, hf => by omega
  | fuel + 1, acc, pos, errors, hacc, hp, hf => by
    rw [parseIndices]
    split
    · rename_i n hv
      obtain ⟨t, ht, hvt⟩ := variantAt_some hv
      obtain ⟨hlt, -⟩ := List.getElem?_eq_some_iff.mp ht
      obtain ⟨i1, i2, i3, i4⟩ := insertIndex_spec n acc hacc
      dsimp only
      generalize insertIndex n acc = ins at i1 i2 i3 i4
      obtain ⟨acc', present⟩ := ins
      dsimp only at i1 i2 i3 i4 ⊢
      have ih := parseIndices_spec fuel acc' (pos + 1)
        (if present then errors ++ [⟨.duplicateDeleted n, tokenSourceRange toks pos⟩] else errors) i2 hlt (by omega)
      refine PResSpec.after (ts := [t]) (drop_of_get ht) rfl ?_ (PResSpec.mono ih ?_)
      · cases present
        · exact ⟨[], by simp⟩
        · exact ⟨_, rfl⟩
      · intro ks rest set e hd he hc heq
        have hpres : present = false := by
          cases hb : present with
          | false => rfl
          | true =>
            have := errors_grow (e1 := errors ++ [⟨.duplicateDeleted n, tokenSourceRange toks pos⟩]) ⟨_, rfl⟩
              (by simpa [hb] using he) heq
            exact absurd this append_ne
        subst hpres
        have hn : n ∉ acc := by
          intro h
          have := i1.mpr h
          cases this
        obtain ⟨ns, h1, h2, h3, h4, h5⟩ := hc (by simpa using heq)
        refine ⟨n :: ns, by simp [hvt, h1], ?_, ?_, ?_, h5⟩
        · refine List.nodup_cons.mpr ⟨fun hm => h3 n hm ((i4 n).mpr (.inl rfl)), h2⟩
        · intro m hm
          rcases List.mem_cons.mp hm with hm | hm
          · rw [hm]; exact hn
          · exact fun h => h3 m hm ((i4 m).mpr (.inr h))
        · have := h4.trans ((i3 hn).append_right ns)
          simpa using this
    · refine PResSpec.pure hp ?_
      intro _
      exact ⟨[], rfl, .nil, by simp, by simp, hacc⟩

theorem parseDeleted_spec {toks : List Token} {pos : Nat} {errors : List ParseErr} (hp : pos ≤ toks.length) :
    PResSpec toks pos errors (Cond errors DeletedSyntax) (parseDeleted toks pos errors) := by
  unfold parseDeleted
  split
  · rename_i hv
    obtain ⟨t, ht, hvt⟩ := variantAt_some hv
    obtain ⟨hlt, -⟩ := List.getElem?_eq_some_iff.mp ht
    refine PResSpec.afterSame (ts := [t]) (drop_of_get ht) rfl
      (PResSpec.mono (parseIndices_spec (toks.length + 1) [] (pos + 1) errors .nil hlt (by omega)) ?_)
    intro ks rest set e hd he hc heq
    obtain ⟨ns, h1, h2, h3, h4, h5⟩ := hc heq
    exact .present hvt h1 h2 (by simpa using h4) h5
  · exact PResSpec.pure hp (fun _ => .absent)

/-! ## Imports -/

theorem parseImport_spec {T : CharTable} {toks : List Token} {pos : Nat} {errors : List ParseErr} {t : Token}
    (ht : toks[pos]? = some t) (hv : t.variant = .import) :
    PResSpec toks (pos + 1) errors (Cond errors fun us r => ImportSyntax T (t :: us) r)
      (parseImport T toks pos errors) := by
  obtain ⟨hlt, -⟩ := List.getElem?_eq_some_iff.mp ht
  unfold parseImport
  have hc : consume toks .import "`import`" pos errors = .some () (pos + 1) errors := by
    simp [consume, ht, hv]
  rw [hc]
  dsimp only [PRes.bind]
  refine PResSpec.bindExact (consumePath_spec hlt) ?_
  rintro path _ rest h1 h2 ⟨p, rfl, hp⟩
  have hd : toks.drop pos = [t, p] ++ rest := by rw [drop_of_get ht, h1]; rfl
  have hspan : spanTokens toks pos (pos + 1 + [p].length) = span [t, p] := spanTokens_eq hd (by simp)
  split
  · refine PResSpec.bindExact (consume_spec h2) ?_
    rintro _ _ rest2 g1 g2 ⟨a, rfl, ha⟩
    refine PResSpec.bindExact (consumeIdentifier_spec g2) ?_
    rintro name _ rest3 k1 k2 ⟨n, rfl, hn⟩
    refine PResSpec.pure k2 (fun _ => ?_)
    have hd2 : toks.drop pos = [t, p, a, n] ++ rest3 := by
      have a2 := (drop_append h1).symm.trans g1
      have a3 := (drop_append g1).symm.trans k1
      rw [hd, a2, a3]; rfl
    have hspan2 : spanTokens toks pos (pos + 1 + [p].length + [a].length + [n].length) = span [t, p, a, n] :=
      spanTokens_eq hd2 (by simp)
    rw [hspan2]
    exact .named hv hp ha hn
  · split
    · rename_i stem hs
      refine PResSpec.pure h2 (fun _ => ?_)
      rw [hspan]
      exact .unnamed hv hp hs
    · refine ⟨h2, ⟨_, rfl⟩, [], _, rfl, rfl, ?_⟩
      intro heq
      exact absurd heq append_ne

theorem parseImports_spec {T : CharTable} {toks : List Token} : ∀ (fuel : Nat) (acc : List (Identifier × Import)) (pos : Nat)
    (errors : List ParseErr), Ascending acc → pos ≤ toks.length → toks.length < fuel + pos →
    PResSpec toks pos errors (Cond errors fun ts imports => ∃ written, Many (ImportSyntax T) ts written ∧
      (written.map (fun i => i.1.snakeCase)).Nodup ∧
      (∀ w ∈ written, w.1.snakeCase ∉ acc.map (fun e => e.1.snakeCase)) ∧
      imports.Perm (acc ++ written) ∧ Ascending imports) (parseImports T toks fuel acc pos errors)
  | 0, _, pos, _, _, hp, hf => by omega
  | fuel + 1, acc, pos, errors, hacc, hp, hf => by
    rw [parseImports]
    split
    · rename_i hv
      obtain ⟨t, ht, hvt⟩ := variantAt_some hv
      obtain ⟨hlt, -⟩ := List.getElem?_eq_some_iff.mp ht
      have hi := parseImport_spec (T := T) (errors := errors) ht hvt
      generalize parseImport T toks pos errors = r at hi
      cases r with
      | panic => exact hi
      | none pos' errors' =>
        obtain ⟨g1, g2, e, more, g3⟩ := hi
        dsimp only
        have ih := parseImports_spec (T := T) fuel acc pos' errors' hacc g2 (by omega)
        have hd : toks.drop pos = (toks.drop pos).take (pos' - pos) ++ toks.drop pos' := by
          have : toks.drop pos' = (toks.drop pos).drop (pos' - pos) := by
            rw [List.drop_drop]; congr 1; omega
          rw [this, List.take_append_drop]
        refine PResSpec.after hd ?_ ⟨_, g3⟩ (PResSpec.mono ih ?_)
        · rw [List.length_take, List.length_drop]; omega
        · intro ts rest imports e' _ he _ heq
          exfalso
          have := errors_grow ⟨_, g3⟩ he heq
          rw [g3] at this
          have := congrArg List.length this
          simp at this
      | some v pos' errors' =>
        obtain ⟨name, imp⟩ := v
        obtain ⟨g1, g2, us, rest, g3, g4, g5⟩ := hi
        dsimp only
        obtain ⟨i1, i2, i3, i4⟩ := insertImport_spec name imp acc hacc
        generalize insertImport name imp acc = ins at i1 i2 i3 i4
        obtain ⟨acc', present⟩ := ins
        dsimp only at i1 i2 i3 i4 ⊢
        have ih := parseImports_spec (T := T) fuel acc' pos'
          (if present then errors' ++ [⟨.duplicateImport name, imp.sourceRange⟩] else errors') i2 g1 (by omega)
        have hgrow : ∃ more, (if present then errors' ++ [⟨.duplicateImport name, imp.sourceRange⟩] else errors') =
            errors ++ more := by
          obtain ⟨more, rfl⟩ := g2
          cases present
          · exact ⟨more, by simp⟩
          · exact ⟨more ++ [⟨.duplicateImport name, imp.sourceRange⟩], by simp⟩
        refine PResSpec.after (ts := t :: us) (rest := rest) ?_ ?_ hgrow (PResSpec.mono ih ?_)
        · rw [drop_of_get ht, g3]; rfl
        · rw [g4]; simp; omega
        · intro ts rest' imports e' _ he hc heq
          have h1 := errors_grow hgrow he heq
          have hpres : present = false := by
            cases hb : present with
            | false => rfl
            | true =>
              obtain ⟨more, rfl⟩ := g2
              simp only [hb, if_true] at h1
              have := congrArg List.length h1
              simp at this
          subst hpres
          simp only [Bool.false_eq_true, if_false] at h1 hc
          subst h1
          have hn : name.snakeCase ∉ acc.map (fun e => e.1.snakeCase) := by
            intro h
            have := i1.mpr h
            cases this
          obtain ⟨written, k1, k2, k3, k4, k5⟩ := hc heq
          refine ⟨(name, imp) :: written, .cons (g5 rfl) k1, ?_, ?_, ?_, k5⟩
          · rw [List.map_cons]
            refine List.nodup_cons.mpr ⟨fun hm => ?_, k2⟩
            obtain ⟨w, hw, he⟩ := List.mem_map.mp hm
            exact k3 w hw ((i4 _).mpr (.inl he))
          · intro w hw
            rcases List.mem_cons.mp hw with hw | hw
            · rw [hw]; exact hn
            · exact fun h => k3 w hw ((i4 _).mpr (.inr h))
          · have := k4.trans ((i3 hn).append_right written)
            simpa using this
    · refine PResSpec.pure hp ?_
      intro _
      exact ⟨[], .nil, .nil, by simp, by simp, hacc⟩

/-! ## Fields and declarations -/

theorem skipToCurly_le {toks : List Token} : ∀ (fuel pos : Nat), pos ≤ toks.length →
    pos ≤ skipToCurly toks fuel pos ∧ skipToCurly toks fuel pos ≤ toks.length
  | 0, pos, h => ⟨Nat.le_refl _, h⟩
  | fuel + 1, pos, h => by
    rw [skipToCurly]
    split
    · exact ⟨Nat.le_refl _, h⟩
    · exact ⟨Nat.le_refl _, h⟩
    · rename_i v _ hv
      obtain ⟨t, ht, hvt⟩ := variantAt_some hv
      obtain ⟨hlt, -⟩ := List.getElem?_eq_some_iff.mp ht
      have := skipToCurly_le fuel (pos + 1) hlt
      omega

theorem parseFields_spec {toks : List Token} : ∀ (fuel : Nat) (acc : List Field) (pos : Nat) (errors : List ParseErr),
    pos ≤ toks.length → toks.length < fuel + pos →
    PResSpec toks pos errors (Cond errors fun ts fs => ∃ more, fs = acc ++ more ∧ Many FieldSyntax ts more)
      (parseFields toks fuel acc pos errors)
  | 0, _, pos, _, hp, hf => by omega
  | fuel + 1, acc, pos, errors, hp, hf => by
    have stop : PResSpec toks pos errors (Cond errors fun ts fs => ∃ more, fs = acc ++ more ∧ Many FieldSyntax ts more)
        (.some acc pos errors) := PResSpec.pure hp (fun _ => ⟨[], by simp, .nil⟩)
    rw [parseFields]
    split
    · exact stop
    · exact stop
    · exact stop
    · have hfld := parseField_spec (errors := errors) hp
      generalize parseField toks pos errors = r at hfld
      cases r with
      | panic => exact hfld
      | some field pos' errors' =>
        obtain ⟨g1, g2, ts, rest, g3, g4, rfl, g5⟩ := hfld
        dsimp only
        have hne : 0 < ts.length := by
          cases g5; exact List.length_pos_iff.mpr (by simp)
        refine PResSpec.afterSame g3 g4 (PResSpec.mono (parseFields_spec fuel (acc ++ [field]) pos' errors' g1 (by omega)) ?_)
        intro us rest' fs e _ _ hc heq
        obtain ⟨more, h1, h2⟩ := hc heq
        exact ⟨field :: more, by rw [h1]; simp, .cons g5 h2⟩
      | none pos' errors' =>
        obtain ⟨g1, g2, e, more, g3⟩ := hfld
        dsimp only
        obtain ⟨s1, s2⟩ := skipToCurly_le toks.length pos' g2
        generalize skipToCurly toks toks.length pos' = pos'' at s1 s2
        have hd : toks.drop pos = (toks.drop pos).take (pos'' - pos) ++ toks.drop pos'' := by
          have : toks.drop pos'' = (toks.drop pos).drop (pos'' - pos) := by
            rw [List.drop_drop]; congr 1; omega
          rw [this, List.take_append_drop]
        refine ⟨s2, ⟨_, g3⟩, _, _, hd, ?_, ?_⟩
        · rw [List.length_take, List.length_drop]; omega
        · intro heq
          rw [g3] at heq
          have := congrArg List.length heq
          simp at this

theorem parseKeyword_spec {toks : List Token} {pos : Nat} {errors : List ParseErr} (hp : pos < toks.length) :
    PResSpec toks pos errors (Exact errors fun ts v => ∃ t, ts = [t] ∧ KeywordSyntax t v) (parseKeyword toks pos errors) := by
  unfold parseKeyword
  split
  · rename_i h
    have := variantAt_none h
    omega
  · rename_i h
    obtain ⟨t, ht, hv⟩ := variantAt_some h
    exact ⟨hp, ⟨[], by simp⟩, [t], _, drop_of_get ht, rfl, rfl, t, rfl, .inl ⟨hv, rfl⟩⟩
  · rename_i h
    obtain ⟨t, ht, hv⟩ := variantAt_some h
    exact ⟨hp, ⟨[], by simp⟩, [t], _, drop_of_get ht, rfl, rfl, t, rfl, .inr ⟨hv, rfl⟩⟩
  · exact ⟨Nat.le_refl _, by omega, _, [], rfl⟩

theorem parseDeclaration_spec {toks : List Token} {pos : Nat} {errors : List ParseErr} (hp : pos < toks.length) :
    PResSpec toks pos errors (fun ts d e => ts ≠ [] ∧ Cond errors DeclSyntax ts d e) (parseDeclaration toks pos errors) ∨
      (parseDeclaration toks pos errors = .panic ∧ ∃ ps, variantAt toks pos = some (.comment ps) ∧ pos + 1 = toks.length) := by
  unfold parseDeclaration
  obtain ⟨c, rest1, hc1, hc2, hc3, hc4⟩ := parseComment_spec (pos := pos) (Nat.le_of_lt hp)
  have hcase : (parseComment toks pos).2 < toks.length ∨
      ∃ ps, variantAt toks pos = some (.comment ps) ∧ pos + 1 = toks.length ∧ (parseComment toks pos).2 = toks.length := by
    unfold parseComment
    split
    · rename_i ps h
      by_cases hlt : pos + 1 < toks.length
      · exact .inl hlt
      · exact .inr ⟨ps, h, by omega, by dsimp only; omega⟩
    · exact .inl hp
  dsimp only
  generalize parseComment toks pos = pc at hc2 hc3 hc4 hcase ⊢
  obtain ⟨comment, pos1⟩ := pc
  dsimp only at hc2 hc3 hc4 hcase ⊢
  rcases hcase with hlt | ⟨ps, h1, h2, h3⟩
  · left
    refine PResSpec.afterSame hc1 hc2 (PResSpec.bindExact (parseKeyword_spec hlt) ?_)
    rintro keyword _ rest2 k1 k2 ⟨k, rfl, hk⟩
    refine PResSpec.bindExact (consumeIdentifier_spec k2) ?_
    rintro name _ rest3 n1 n2 ⟨n, rfl, hn⟩
    refine PResSpec.bindExact (consume_spec n2) ?_
    rintro _ _ rest4 l1 l2 ⟨l, rfl, hl⟩
    refine PResSpec.bind (parseFields_spec (toks.length + 1) [] _ errors l2 (by omega)) ?_
    intro fields fs rest5 e1 f1 f2 f3 f4
    refine PResSpec.bind (parseDeleted_spec f2) ?_
    intro deleted del rest6 e2 d1 d2 d3 d4
    refine PResSpec.bindExact (consume_spec d2) ?_
    rintro _ _ rest7 r1 r2 ⟨r, rfl, hr⟩
    refine PResSpec.pure r2 ⟨by simp, ?_⟩
    intro heq
    subst heq
    have he1 : e1 = e2 := errors_grow f3 d3 rfl
    subst he1
    obtain ⟨more, hm1, hm2⟩ := f4 rfl
    have hdel := d4 rfl
    have hfe : fields = more := by simpa using hm1
    subst hfe
    have hd : toks.drop pos = (c ++ [k, n, l] ++ fs ++ del ++ [r]) ++ rest7 := by
      subst hc2
      have a1 := (drop_append hc1).symm.trans k1
      have a2 := (drop_append k1).symm.trans n1
      have a3 := (drop_append n1).symm.trans l1
      have a4 := (drop_append l1).symm.trans f1
      have a5 := (drop_append f1).symm.trans d1
      have a6 := (drop_append d1).symm.trans r1
      rw [hc1, a1, a2, a3, a4, a5, a6]; simp
    have hsp := spanTokens_eq hd (by simp)
    have hlen : pos + (c ++ [k, n, l] ++ fs ++ del ++ [r]).length =
        pos1 + [k].length + [n].length + [l].length + fs.length + del.length + [r].length := by
      rw [hc2]; simp; omega
    rw [hlen] at hsp
    rw [hsp]
    have := DeclSyntax.mk hc4 hk hn hl hm2 hdel hr
    simpa using this
  · right
    refine ⟨?_, ps, h1, h2⟩
    have : parseKeyword toks pos1 errors = .panic := by
      unfold parseKeyword
      have : variantAt toks pos1 = none := by
        simp [variantAt, h3]
      rw [this]
    rw [this]
    rfl

theorem parseDeclarations_spec {toks : List Token} : ∀ (fuel : Nat) (acc : List Declaration) (pos : Nat)
    (errors : List ParseErr), pos ≤ toks.length → toks.length < fuel + pos →
    PResSpec toks pos errors (Cond errors fun ts ds => ∃ more, ds = acc ++ more ∧ Many DeclSyntax ts more ∧
        pos + ts.length = toks.length)
      (parseDeclarations toks fuel acc pos errors) ∨
    (parseDeclarations toks fuel acc pos errors = .panic ∧ pos < toks.length ∧
      ∃ ps, variantAt toks (toks.length - 1) = some (.comment ps))
  | 0, _, pos, _, hp, hf => by omega
  | fuel + 1, acc, pos, errors, hp, hf => by
    rw [parseDeclarations]
    split
    · rename_i hlt
      rcases parseDeclaration_spec (errors := errors) hlt with hd | ⟨hd, ps, hv, hl⟩
      · generalize parseDeclaration toks pos errors = r at hd
        cases r with
        | panic => exact absurd hd id
        | none pos' errors' =>
          obtain ⟨g1, g2, e, more, g3⟩ := hd
          dsimp only
          left
          have hd : toks.drop pos = (toks.drop pos).take (pos' - pos) ++ toks.drop pos' := by
            have : toks.drop pos' = (toks.drop pos).drop (pos' - pos) := by
              rw [List.drop_drop]; congr 1; omega
            rw [this, List.take_append_drop]
          refine ⟨g2, ⟨_, g3⟩, _, _, hd, ?_, ?_⟩
          · rw [List.length_take, List.length_drop]; omega
          · intro heq
            rw [g3] at heq
            have := congrArg List.length heq
            simp at this
        | some d pos' errors' =>
          obtain ⟨g1, g2, ts, rest, g3, g4, hne, g5⟩ := hd
          dsimp only
          have hlen : 0 < ts.length := List.length_pos_iff.mpr hne
          rcases parseDeclarations_spec fuel (acc ++ [d]) pos' errors' g1 (by omega) with ih | ⟨h1, h2, ps, h3⟩
          · left
            refine PResSpec.after g3 g4 g2 (PResSpec.mono ih ?_)
            intro us rest' ds e _ he hc heq
            have he1 := errors_grow g2 he heq
            subst he1
            obtain ⟨more, h1, h2, h3⟩ := hc heq
            refine ⟨d :: more, by rw [h1]; simp, .cons (g5 rfl) h2, ?_⟩
            rw [List.length_append]; omega
          · exact .inr ⟨h1, by omega, ps, h3⟩
      · right
        rw [hd]
        refine ⟨rfl, hlt, ps, ?_⟩
        rw [← hl]
        simpa using hv
    · left
      refine PResSpec.pure hp ?_
      intro _
      exact ⟨[], by simp, .nil, by simp; omega⟩

/-! ## Schemas -/

theorem parseSchemaComment_spec (toks : List Token) : ∃ c rest, toks = c ++ rest ∧
    (parseSchemaComment toks).2 = c.length ∧ CommentSyntax c (parseSchemaComment toks).1 ∧
    (∀ t u us, rest = u :: us → c = [t] → u.variant = .struct ∨ u.variant = .choice → Separated t u) ∧
    (∀ t u us ps, c = [] → rest = t :: u :: us → t.variant = .comment ps → (u.variant = .struct ∨ u.variant = .choice) ∧
      ¬ Separated t u) ∧ (∀ t ps, c = [] → rest = [t] → t.variant ≠ .comment ps) := by
  unfold parseSchemaComment
  split
  · rename_i r ps r' v rest
    by_cases hv : v = .struct ∨ v = .choice
    · rw [if_pos hv]
      by_cases hs : r.stop + 1 < r'.start
      · rw [if_pos hs]
        refine ⟨[⟨r, .comment ps⟩], ⟨r', v⟩ :: rest, rfl, rfl, .present rfl, ?_, by simp, by simp⟩
        intro t u us h1 h2 h3
        cases h1; cases h2
        exact hs
      · rw [if_neg hs]
        refine ⟨[], _, rfl, rfl, .absent, by simp, ?_, by simp⟩
        intro t u us ps' _ h1 h2
        cases h1
        exact ⟨hv, hs⟩
    · rw [if_neg hv]
      refine ⟨[⟨r, .comment ps⟩], ⟨r', v⟩ :: rest, rfl, rfl, .present rfl, ?_, by simp, by simp⟩
      intro t u us h1 h2 h3
      cases h1
      exact absurd h3 hv
  · rename_i r ps
    exact ⟨[⟨r, .comment ps⟩], [], rfl, rfl, .present rfl, by simp, by simp, by simp⟩
  · rename_i h1 h2
    refine ⟨[], toks, rfl, rfl, .absent, by simp, ?_, ?_⟩
    · intro t u us ps _ he hv
      obtain ⟨r, v⟩ := t
      obtain ⟨r', v'⟩ := u
      dsimp only at hv
      subst hv
      exact absurd he (h1 r ps r' v' us)
    · intro t ps _ he hv
      obtain ⟨r, v⟩ := t
      dsimp only at hv
      subst hv
      exact absurd he (h2 r ps)

theorem parse_sound {T : CharTable} {toks : List Token} {schema : Schema} (h : parse T toks = .ok schema) :
    SchemaSyntax T toks schema := by
  unfold parse parseSchema at h
  obtain ⟨c, rest, hc1, hc2, hc3, hc4, hc5, hc6⟩ := parseSchemaComment_spec toks
  dsimp only at h
  generalize parseSchemaComment toks = pc at h hc2 hc3
  obtain ⟨comment, pos⟩ := pc
  dsimp only at h hc2 hc3
  have hpos : pos ≤ toks.length := by rw [hc1, hc2]; simp
  have hi := parseImports_spec (T := T) (toks.length + 1) [] pos [] .nil hpos (by omega)
  generalize parseImports T toks (toks.length + 1) [] pos [] = ri at h hi
  cases ri with
  | panic => exact absurd hi id
  | none pos' errors' =>
    exact absurd h (by simp [PRes.bind])
  | some imports pos1 errors1 =>
    obtain ⟨i1, i2, is, rest2, i3, i4, i5⟩ := hi
    dsimp only [PRes.bind] at h
    rcases parseDeclarations_spec (toks := toks) (toks.length + 1) [] pos1 errors1 i1 (by omega) with hd | ⟨hd, -⟩
    · generalize parseDeclarations toks (toks.length + 1) [] pos1 errors1 = rd at h hd
      cases rd with
      | panic => exact absurd hd id
      | none pos' errors' => exact absurd h (by simp)
      | some decls pos2 errors2 =>
        obtain ⟨d1, d2, ds, rest3, d3, d4, d5⟩ := hd
        dsimp only at h
        generalize hE : (if errors2.isEmpty ∧ pos2 ≠ toks.length then
          errors2 ++ [⟨.unexpected, tokenSourceRange toks pos2⟩] else errors2) = E at h
        by_cases herr : E.isEmpty
        · rw [if_pos herr] at h
          cases h
          have he2 : errors2 = [] := by
            by_cases hb : errors2.isEmpty ∧ pos2 ≠ toks.length
            · rw [if_pos hb] at hE
              subst hE
              simp at herr
            · rw [if_neg hb] at hE
              subst hE
              simpa using herr
          subst he2
          have he1 : errors1 = [] := errors_grow i2 d2 rfl
          subst he1
          obtain ⟨written, w1, w2, w3, w4, w5⟩ := i5 rfl
          obtain ⟨more, m1, m2, m3⟩ := d5 rfl
          have hm : decls = more := by simpa using m1
          subst hm
          have hrest : toks.drop pos = rest := by rw [hc1, hc2]; simp
          have hrest3 : rest3 = [] := by
            have := congrArg List.length d3
            simp only [List.length_drop, List.length_append] at this
            exact List.eq_nil_of_length_eq_zero (by omega)
          subst hrest3
          have hall : rest = is ++ ds := by
            subst i4
            rw [drop_append i3] at d3
            rw [← hrest, i3, d3]; simp
          rw [hall] at hc1 hc4 hc5
          rw [hc1, ← List.append_assoc]
          exact .mk hc3 w1 w2 (by simpa using w4) w5 m2 hc4 (fun t u us ps h1 h2 h3 => (hc5 t u us ps h1 h2 h3).2)
        · rw [if_neg herr] at h
          cases h
    · rw [hd] at h
      cases h

theorem parse_panic {T : CharTable} {toks : List Token} (h : parse T toks = .panic) :
    2 ≤ toks.length ∧ ∃ ps, variantAt toks (toks.length - 1) = some (.comment ps) := by
  unfold parse parseSchema at h
  obtain ⟨c, rest, hc1, hc2, hc3, hc4, hc5, hc6⟩ := parseSchemaComment_spec toks
  dsimp only at h
  generalize parseSchemaComment toks = pc at h hc2 hc3
  obtain ⟨comment, pos⟩ := pc
  dsimp only at h hc2 hc3
  have hpos : pos ≤ toks.length := by rw [hc1, hc2]; simp
  have hi := parseImports_spec (T := T) (toks.length + 1) [] pos [] .nil hpos (by omega)
  generalize parseImports T toks (toks.length + 1) [] pos [] = ri at h hi
  cases ri with
  | panic => exact absurd hi id
  | none pos' errors' => exact absurd h (by simp [PRes.bind])
  | some imports pos1 errors1 =>
    obtain ⟨i1, i2, is, rest2, i3, i4, i5⟩ := hi
    dsimp only [PRes.bind] at h
    rcases parseDeclarations_spec (toks := toks) (toks.length + 1) [] pos1 errors1 i1 (by omega) with hd | ⟨hd, hlt, ps, hps⟩
    · generalize parseDeclarations toks (toks.length + 1) [] pos1 errors1 = rd at h hd
      cases rd with
      | panic => exact absurd hd id
      | none pos' errors' => exact absurd h (by simp)
      | some decls pos2 errors2 =>
        dsimp only at h
        generalize (if errors2.isEmpty ∧ pos2 ≠ toks.length then
          errors2 ++ [⟨.unexpected, tokenSourceRange toks pos2⟩] else errors2) = E at h
        by_cases herr : E.isEmpty
        · rw [if_pos herr] at h; cases h
        · rw [if_neg herr] at h; cases h
    · refine ⟨?_, ps, hps⟩
      apply Classical.byContradiction
      intro hn
      have hl : toks.length = 1 := by omega
      have hp0 : pos = 0 := by omega
      have hcn : c = [] := List.eq_nil_of_length_eq_zero (by omega)
      subst hcn
      obtain ⟨t, rfl⟩ := List.length_eq_one_iff.mp hl
      have hr : rest = [t] := by simpa using hc1.symm
      obtain ⟨t', ht', hv'⟩ := variantAt_some hps
      simp at ht'
      subst ht'
      exact hc6 t ps rfl hr hv'

end Typical
