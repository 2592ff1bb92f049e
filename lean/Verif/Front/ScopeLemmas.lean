import Verif.Spec.Scopes
import Verif.Props.Names

/-!
# Lemmas: when two names coincide in Pascal case or camel case
-/

namespace Typical

/-- From the converted name to the snake-case name without separators before digits. -/
def uncapitalize (s : Str) : Str := s.flatMap (fun c => if c.isUpper then ['_', c.toLower] else [c])

/-- The converse. -/
def recapitalize : Str → Str
  | [] => []
  | [c] => [c]
  | c :: d :: s => if c = '_' then d.toUpper :: recapitalize s else c :: recapitalize (d :: s)

/-- The words with a separator before each. -/
def prefixed (ws : List Str) : Str := ws.flatMap (fun w => '_' :: w)

/-- The words capitalized. -/
def capitals (ws : List Str) : Str := ws.flatMap (fun w => match w with | [] => [] | c :: v => c.toUpper :: v)

theorem joinWith_prefixed (w : Str) (ws : List Str) : joinWith ['_'] (w :: ws) = w ++ prefixed ws := by
  induction ws generalizing w with
  | nil => simp [joinWith, prefixed]
  | cons v ws ih => rw [joinWith, ih]; simp [prefixed]

theorem dropSep_cons {c : Char} (h : c ≠ '_') (s : Str) : dropDigitSeparators (c :: s) = c :: dropDigitSeparators s := by
  cases s with
  | nil => rfl
  | cons d s => rw [dropDigitSeparators, if_neg (fun g => h g.1)]

theorem dropSep_append {w : Str} (h : '_' ∉ w) (s : Str) : dropDigitSeparators (w ++ s) = w ++ dropDigitSeparators s := by
  induction w with
  | nil => rfl
  | cons c w ih =>
    rw [List.mem_cons, not_or] at h
    rw [List.cons_append, dropSep_cons (Ne.symm h.1), ih h.2]; rfl

theorem LowerWord.no_sep {w : Str} (h : LowerWord w) : '_' ∉ w := fun g => (lower_not_sep (h.2 _ g)).1 rfl

theorem lower_up {c : Char} (h : c.isLower = true) : c.toUpper.isUpper = true ∧ c.toUpper.toLower = c ∧ c.isDigit = false := by
  have := ascii_all (fun c => !c.isLower || (c.toUpper.isUpper && c.toUpper.toLower = c && !c.isDigit)) (by decide +kernel)
    (alphanum_lt (lower_alphanum (.inl h)))
  simpa [h, and_assoc] using this

theorem digit_up {c : Char} (h : c.isDigit = true) : c.toUpper = c := by
  have := ascii_all (fun c => !c.isDigit || (c.toUpper = c)) (by decide +kernel)
    (alphanum_lt (lower_alphanum (.inr h)))
  simpa [h] using this

theorem uncapitalize_lower {w : Str} (h : ∀ c ∈ w, c.isLower = true ∨ c.isDigit = true) (s : Str) :
    uncapitalize (w ++ s) = w ++ uncapitalize s := by
  unfold uncapitalize
  rw [List.flatMap_append]
  congr 1
  induction w with
  | nil => rfl
  | cons c w ih =>
    rw [List.flatMap_cons, (lower_not_sep (h c (by simp))).2.2, ih (fun d hd => h d (by simp [hd]))]
    rfl

theorem dropSep_prefixed : ∀ ws : List Str, (∀ w ∈ ws, LowerWord w) →
    dropDigitSeparators (prefixed ws) = uncapitalize (capitals ws)
  | [], _ => rfl
  | [] :: ws, h => absurd rfl (h [] (by simp)).1
  | (c :: w) :: ws, h => by
    have hw := h (c :: w) (by simp)
    have ih := dropSep_prefixed ws (fun v hv => h v (by simp [hv]))
    have e1 : prefixed ((c :: w) :: ws) = '_' :: c :: (w ++ prefixed ws) := rfl
    have e2 : capitals ((c :: w) :: ws) = c.toUpper :: (w ++ capitals ws) := rfl
    have hs : '_' ∉ w := fun g => hw.no_sep (by simp [g])
    have hwl : ∀ d ∈ w, d.isLower = true ∨ d.isDigit = true := fun d hd => hw.2 d (by simp [hd])
    have hc := hw.2 c (by simp)
    have hcs := (lower_not_sep hc).1
    rw [e1, e2, dropDigitSeparators]
    have e3 : ∀ d s, uncapitalize (d :: s) = (if d.isUpper then ['_', d.toLower] else [d]) ++ uncapitalize s := by
      intro d s; unfold uncapitalize; rw [List.flatMap_cons]
    rw [e3, uncapitalize_lower hwl, dropSep_cons hcs, dropSep_append hs, ih]
    rcases hc with hc | hc
    · obtain ⟨h1, h2, h3⟩ := lower_up hc
      rw [h1, h2, h3]
      rfl
    · rw [hc, digit_up hc, (lower_not_sep (.inr hc)).2.2]
      rfl

theorem recapitalize_cons {c : Char} (h : c ≠ '_') (s : Str) : recapitalize (c :: s) = c :: recapitalize s := by
  cases s with
  | nil => rfl
  | cons d s => rw [recapitalize, if_neg h]

theorem recapitalize_append {w : Str} (h : '_' ∉ w) (s : Str) : recapitalize (w ++ s) = w ++ recapitalize s := by
  induction w with
  | nil => rfl
  | cons c w ih =>
    rw [List.mem_cons, not_or] at h
    rw [List.cons_append, recapitalize_cons (Ne.symm h.1), ih h.2]; rfl

theorem recapitalize_prefixed : ∀ ws : List Str, (∀ w ∈ ws, LowerWord w) →
    recapitalize (dropDigitSeparators (prefixed ws)) = capitals ws
  | [], _ => rfl
  | [] :: ws, h => absurd rfl (h [] (by simp)).1
  | (c :: w) :: ws, h => by
    have hw := h (c :: w) (by simp)
    have ih := recapitalize_prefixed ws (fun v hv => h v (by simp [hv]))
    have e1 : prefixed ((c :: w) :: ws) = '_' :: c :: (w ++ prefixed ws) := rfl
    have e2 : capitals ((c :: w) :: ws) = c.toUpper :: (w ++ capitals ws) := rfl
    have hs : '_' ∉ w := fun g => hw.no_sep (by simp [g])
    have hc := hw.2 c (by simp)
    have hcs := (lower_not_sep hc).1
    rw [e1, e2, dropDigitSeparators, dropSep_cons hcs, dropSep_append hs]
    rcases hc with hc | hc
    · rw [(lower_up hc).2.2, if_neg (by simp), recapitalize, if_pos rfl, recapitalize_append hs, ih]
    · rw [if_pos ⟨rfl, hc⟩, recapitalize_cons hcs, recapitalize_append hs, ih, digit_up hc]

theorem capitalize_capitals {T : CharTable} (hT : T.Ascii) (ws : List Str) (h : ∀ w ∈ ws, PlainWord w) :
    ws.flatMap (capitalize T) = capitals (ws.map T.lowercase) := by
  induction ws with
  | nil => rfl
  | cons w ws ih =>
    have hw := h w (by simp)
    rw [List.flatMap_cons, ih (fun v hv => h v (by simp [hv])), List.map_cons]
    have : capitals (T.lowercase w :: ws.map T.lowercase) =
      (match T.lowercase w with | [] => [] | c :: v => c.toUpper :: v) ++ capitals (ws.map T.lowercase) := rfl
    rw [this]
    congr 1
    cases w with
    | nil => exact absurd rfl hw.1
    | cons c w =>
      have hc := hw.2 c (by simp)
      rw [lowercase_plain hT hw, capitalize, hT.toUppercase c (alphanum_lt hc),
        hT.lowercase w (fun x hx => alphanum_lt (hw.2 x (by simp [hx])))]
      have := ascii_all (fun c => !c.isAlphanum || (c.toLower.toUpper = c.toUpper)) (by decide +kernel) (alphanum_lt hc)
      have he : c.toLower.toUpper = c.toUpper := by simpa [hc] using this
      show _ = c.toLower.toUpper :: w.map Char.toLower
      rw [he]; rfl

/-- The parts of the converted names. -/
theorem converted {T : CharTable} (hT : T.Ascii) {a : Str} (h : PlainAscii a) : ∃ c w ws,
    (Identifier.ofStr T a).snakeCase = c :: w ++ prefixed ws ∧
    (Identifier.ofStr T a).pascalCase T = c.toUpper :: w ++ capitals ws ∧
    (Identifier.ofStr T a).camelCase T = c :: w ++ capitals ws ∧
    c.isLower = true ∧ LowerWord (c :: w) ∧ ∀ v ∈ ws, LowerWord v := by
  obtain ⟨c, w, ws, e, hc, hp⟩ := first_word hT h
  have hl : ∀ v ∈ (c :: w) :: ws, LowerWord (T.lowercase v) := by
    intro v hv; rw [lowercase_plain hT (hp v hv)]; exact (hp v hv).lower
  have h1 : T.lowercase (c :: w) = c.toLower :: w.map Char.toLower := by
    rw [lowercase_plain hT (hp _ (by simp))]; rfl
  have hcc := capitalize_capitals hT _ hp
  refine ⟨c.toLower, w.map Char.toLower, ws.map T.lowercase, ?_, ?_, ?_, (alpha_not_sep hc).2.2.1, ?_, ?_⟩
  · unfold Identifier.ofStr
    rw [e, List.map_cons, joinWith_prefixed, h1]
  · unfold Identifier.pascalCase Identifier.ofStr
    rw [e, hcc, List.map_cons, h1]; rfl
  · unfold Identifier.camelCase Identifier.ofStr
    rw [e]
    show T.lowercase (c :: w) ++ _ = _
    rw [h1, capitalize_capitals hT ws (fun v hv => hp v (by simp [hv]))]
  · have := hl (c :: w) (by simp)
    rwa [h1] at this
  · intro v hv
    obtain ⟨u, hu, rfl⟩ := List.mem_map.mp hv
    exact hl u (by simp [hu])

/-- Two names coincide in Pascal case iff they differ, in snake case, at most by underscores before digits. -/
theorem pascal_eq_iff {T : CharTable} (hT : T.Ascii) {a b : Str} (ha : PlainAscii a) (hb : PlainAscii b) :
    (Identifier.ofStr T a).pascalCase T = (Identifier.ofStr T b).pascalCase T ↔
      dropDigitSeparators (Identifier.ofStr T a).snakeCase = dropDigitSeparators (Identifier.ofStr T b).snakeCase := by
  obtain ⟨c, w, ws, a1, a2, -, a4, a5, a6⟩ := converted hT ha
  obtain ⟨d, v, vs, b1, b2, -, b4, b5, b6⟩ := converted hT hb
  rw [a1, a2, b1, b2]
  have up : ∀ {c : Char} {w : Str} {ws : List Str}, c.isLower = true → LowerWord (c :: w) → (∀ v ∈ ws, LowerWord v) →
      uncapitalize (c.toUpper :: w ++ capitals ws) = '_' :: dropDigitSeparators (c :: w ++ prefixed ws) := by
    intro c w ws h1 h2 h3
    obtain ⟨u1, u2, -⟩ := lower_up h1
    have e3 : ∀ d s, uncapitalize (d :: s) = (if d.isUpper then ['_', d.toLower] else [d]) ++ uncapitalize s := by
      intro d s; unfold uncapitalize; rw [List.flatMap_cons]
    rw [List.cons_append, e3, u1, u2, uncapitalize_lower (fun d hd => h2.2 d (by simp [hd])),
      dropSep_append h2.no_sep, dropSep_prefixed _ h3]
    rfl
  have down : ∀ {c : Char} {w : Str} {ws : List Str}, c.isLower = true → LowerWord (c :: w) → (∀ v ∈ ws, LowerWord v) →
      c.toUpper :: w ++ capitals ws = recapitalize ('_' :: dropDigitSeparators (c :: w ++ prefixed ws)) := by
    intro c w ws h1 h2 h3
    rw [dropSep_append h2.no_sep]
    show c.toUpper :: (w ++ capitals ws) = recapitalize ('_' :: c :: (w ++ dropDigitSeparators (prefixed ws)))
    rw [recapitalize, if_pos rfl, recapitalize_append (fun g => h2.no_sep (by simp [g])), recapitalize_prefixed _ h3]
  constructor
  · intro h
    have := congrArg uncapitalize h
    rw [up a4 a5 a6, up b4 b5 b6] at this
    exact (List.cons.inj this).2
  · intro h
    rw [down a4 a5 a6, down b4 b5 b6, h]

/-- The same for camel case. -/
theorem camel_eq_iff {T : CharTable} (hT : T.Ascii) {a b : Str} (ha : PlainAscii a) (hb : PlainAscii b) :
    (Identifier.ofStr T a).camelCase T = (Identifier.ofStr T b).camelCase T ↔
      dropDigitSeparators (Identifier.ofStr T a).snakeCase = dropDigitSeparators (Identifier.ofStr T b).snakeCase := by
  obtain ⟨c, w, ws, a1, -, a3, -, a5, a6⟩ := converted hT ha
  obtain ⟨d, v, vs, b1, -, b3, -, b5, b6⟩ := converted hT hb
  rw [a1, a3, b1, b3, dropSep_append a5.no_sep, dropSep_append b5.no_sep]
  constructor
  · intro h
    have := congrArg uncapitalize h
    rwa [uncapitalize_lower a5.2, uncapitalize_lower b5.2, ← dropSep_prefixed _ a6, ← dropSep_prefixed _ b6] at this
  · intro h
    have := congrArg recapitalize h
    rwa [recapitalize_append a5.no_sep, recapitalize_append b5.no_sep, recapitalize_prefixed _ a6,
      recapitalize_prefixed _ b6] at this

end Typical
