import Verif.TypeScript

/-!
# Helper lemmas: decoding a part of a larger buffer

Main result: `Ts.deserializeView_emb`.
-/

namespace Typical.Ts

/-- `w` is the view of a larger buffer which corresponds to the view `v`. -/
def Emb (v w : View) : Prop :=
  ∃ pre post, w.buf = pre ++ v.buf ++ post ∧ w.base = pre.length + v.base ∧ w.len = v.len ∧
    v.base + v.len ≤ v.buf.length

theorem Emb.getUint8 {v w : View} (h : Emb v w) (off : Nat) : w.getUint8 off = v.getUint8 off := by
  obtain ⟨pre, post, h1, h2, h3, h4⟩ := h
  unfold View.getUint8
  rw [h3]
  split
  · rw [h1, h2, List.append_assoc, Nat.add_assoc, List.getElem?_append_right (by omega),
      List.getElem?_append_left (by omega)]
    congr 1; omega
  · rfl

theorem Emb.getBytes {v w : View} (h : Emb v w) : ∀ (n off : Nat), w.getBytes off n = v.getBytes off n
  | 0, _ => rfl
  | n + 1, off => by
    unfold View.getBytes
    rw [h.getUint8, Emb.getBytes h n]

theorem Emb.varint {v w : View} (h : Emb v w) (off : Nat) : deserializeVarint w off = deserializeVarint v off := by
  unfold deserializeVarint
  simp only [h.getUint8, h.getBytes]

theorem Emb.header {v w : View} (h : Emb v w) (off : Nat) :
    deserializeFieldHeader w off = deserializeFieldHeader v off := by
  unfold deserializeFieldHeader
  simp only [h.getUint8, h.varint]

theorem Emb.readU64 {v w : View} (h : Emb v w) (b : Bool) (n off : Nat) :
    Ts.readU64 b n w off = Ts.readU64 b n v off := by
  unfold Ts.readU64
  simp only [h.getBytes, h.varint]

theorem Emb.readScalar {v w : View} (h : Emb v w) (b : Bool) (n off : Nat) (s : Scalar) :
    Ts.readScalar b n w off s = Ts.readScalar b n v off s := by
  have hf : getFloat64 w off = getFloat64 v off := by
    unfold getFloat64
    simp only [h.getBytes]
  cases s <;> simp only [Ts.readScalar, h.readU64, hf]

theorem Emb.all {v w : View} (h : Emb v w) :
    (w.buf.drop w.base).take w.len = (v.buf.drop v.base).take v.len := by
  obtain ⟨pre, post, h1, h2, h3, h4⟩ := h
  rw [h1, h2, h3, ← List.drop_drop, List.append_assoc, List.drop_left,
    List.drop_append_of_le_length (by omega), List.take_append_of_le_length (by simp; omega)]

theorem Emb.new {v w : View} (h : Emb v w) {off n : Nat} {v' : View}
    (e : View.new v.buf (v.base + off) n = some v') :
    ∃ w', View.new w.buf (w.base + off) n = some w' ∧ Emb v' w' := by
  obtain ⟨pre, post, h1, h2, h3, h4⟩ := h
  unfold View.new at e ⊢
  split at e
  · cases e
    refine ⟨⟨w.buf, w.base + off, n⟩, if_pos ?_, pre, post, h1, ?_, rfl, by assumption⟩
    · rw [h1, h2]; simp only [List.length_append]; omega
    · simp only; omega
  · cases e

/-- Views of payloads. -/
def OEmb (v w : Option View) : Prop := ∀ v', v = some v' → ∃ w', w = some w' ∧ Emb v' w'

theorem Emb.onew {v w : View} (h : Emb v w) (off n : Nat) :
    OEmb (View.new v.buf (v.base + off) n) (View.new w.buf (w.base + off) n) := fun _ e => h.new e

theorem scalarLoop_emb {α : Type} {f g : Nat → Option (Nat × α)} (h : ∀ o, f o = g o) : ∀ fuel off,
    scalarLoop f fuel off = scalarLoop g fuel off := by
  have : f = g := funext h
  subst this
  intros; rfl

theorem arrayLoop_emb {α : Type} (elem : Nat → View → Res α)
    (he : ∀ n v w, Emb v w → ∀ x, elem n v = .ok x → elem n w = .ok x) {v w : View} (h : Emb v w) :
    ∀ (fuel off : Nat) x, arrayLoop elem v fuel off = .ok x → arrayLoop elem w fuel off = .ok x := by
  intro fuel
  induction fuel with
  | zero => intro off x e; cases e
  | succ fuel ih =>
    intro off x e
    unfold arrayLoop at e ⊢
    rw [h.varint]
    cases hv : deserializeVarint v off with
    | none => rw [hv] at e; exact e
    | some p =>
      obtain ⟨o, n⟩ := p
      rw [hv] at e
      simp only at e ⊢
      cases hn : View.new v.buf (v.base + o) n with
      | none => rw [hn] at e; cases e
      | some v' =>
        obtain ⟨w', hw', hemb⟩ := h.new hn
        rw [hn] at e
        rw [hw']
        simp only at e ⊢
        cases hel : elem n v' with
        | error err => rw [hel] at e; cases e
        | ok q =>
          obtain ⟨o', a⟩ := q
          rw [hel] at e
          rw [he n v' w' hemb _ hel]
          simp only at e ⊢
          cases hl : arrayLoop elem v fuel (o' + o) with
          | error err => rw [hl] at e; cases e
          | ok q =>
            rw [hl] at e
            rw [ih _ _ hl]
            exact e

theorem structLoop_emb {σ : Type} (step : Nat → Nat → Option View → σ → Except Err (Option (Nat × σ)))
    (he : ∀ i n v w st, OEmb v w → ∀ x, step i n v st = .ok x → step i n w st = .ok x) {v w : View} (h : Emb v w) :
    ∀ (fuel off : Nat) (st : σ) x, structLoop step v fuel off st = .ok x → structLoop step w fuel off st = .ok x := by
  intro fuel
  induction fuel with
  | zero => intro off st x e; cases e
  | succ fuel ih =>
    intro off st x e
    unfold structLoop at e ⊢
    rw [h.header]
    cases hv : deserializeFieldHeader v off with
    | none => rw [hv] at e; exact e
    | some p =>
      obtain ⟨o, i, n⟩ := p
      rw [hv] at e
      simp only at e ⊢
      cases hs : step i n (View.new v.buf (v.base + o) n) st with
      | error err => rw [hs] at e; cases e
      | ok q =>
        rw [hs] at e
        rw [he i n _ _ st (h.onew o n) _ hs]
        cases q with
        | none => exact ih _ _ _ e
        | some q => exact ih _ _ _ e

theorem choiceLoop_emb {α β : Type} (step : Nat → Nat → Option View → Except Err (Option (Nat × (α ⊕ β))))
    (he : ∀ i n v w, OEmb v w → ∀ x, step i n v = .ok x → step i n w = .ok x) :
    ∀ (fuel : Nat) (v w : View) (off : Nat), Emb v w → ∀ x, choiceLoop step fuel v off = .ok x →
      choiceLoop step fuel w off = .ok x := by
  intro fuel
  induction fuel with
  | zero => intro v w off h x e; cases e
  | succ fuel ih =>
    intro v w off h x e
    unfold choiceLoop at e ⊢
    rw [h.header]
    cases hv : deserializeFieldHeader v off with
    | none => rw [hv] at e; cases e
    | some p =>
      obtain ⟨o, i, n⟩ := p
      rw [hv] at e
      simp only at e ⊢
      cases hs : step i n (View.new v.buf (v.base + o) n) with
      | error err => rw [hs] at e; cases e
      | ok q =>
        rw [hs] at e
        rw [he i n _ _ (h.onew o n) _ hs]
        match q, e with
        | none, e => exact ih _ _ _ h _ e
        | some (o', .inr b), e => exact e
        | some (o', .inl a), e =>
          simp only at e ⊢
          have hl : w.len = v.len := by obtain ⟨_, _, _, _, h3, _⟩ := h; exact h3
          rw [hl]
          split at e
          · next hle =>
            rw [if_pos hle]
            cases hn : View.new v.buf (v.base + (o' + o)) (v.len - (o' + o)) with
            | none => rw [hn] at e; cases e
            | some v' =>
              obtain ⟨w', hw', hemb⟩ := h.new hn
              rw [hn] at e
              rw [hw']
              simp only at e ⊢
              cases hc : choiceLoop step fuel v' 0 with
              | error err => rw [hc] at e; cases e
              | ok m =>
                rw [hc] at e
                rw [ih _ _ _ hemb _ hc]
                exact e
          · cases e

mutual
theorem cDeser_emb (isField : Bool) : (c : CTy) → (n : Nat) → (v w : View) → Emb v w → ∀ x,
    cDeser isField c n v = .ok x → cDeser isField c n w = .ok x
  | .bytes, _, v, w, h, x, e => by
    have hl : w.len = v.len := by obtain ⟨_, _, _, _, h3, _⟩ := h; exact h3
    rw [← e]
    have ha := h.all
    rw [hl] at ha
    simp only [cDeser, hl, ha]
  | .string, _, v, w, h, x, e => by
    have hl : w.len = v.len := by obtain ⟨_, _, _, _, h3, _⟩ := h; exact h3
    rw [← e]
    have ha := h.all
    rw [hl] at ha
    simp only [cDeser, hl, ha]
  | .units, n, v, w, h, x, e => by
    rw [← e]
    simp only [cDeser, h.readU64]
  | .scalars s, _, v, w, h, x, e => by
    have hl : w.len = v.len := by obtain ⟨_, _, _, _, h3, _⟩ := h; exact h3
    rw [← e]
    simp only [cDeser, h.readScalar, hl]
    rfl
  | .array c, _, v, w, h, x, e => by
    have hl : w.len = v.len := by obtain ⟨_, _, _, _, h3, _⟩ := h; exact h3
    simp only [cDeser, hl] at e ⊢
    exact arrayLoop_emb (cDeser false c) (cDeser_emb false c) h _ _ _ e
  | .struct fs, _, v, w, h, x, e => by
    have hl : w.len = v.len := by obtain ⟨_, _, _, _, h3, _⟩ := h; exact h3
    simp only [cDeser, hl] at e ⊢
    cases hs : structLoop (fieldsStep fs) v (v.len + 1) 0 fs.emptySlots with
    | error err => rw [hs] at e; cases e
    | ok st =>
      rw [structLoop_emb (fieldsStep fs) (fieldsStep_emb fs) h _ _ _ _ hs]
      rw [hs] at e
      exact e
  | .choice fs, _, v, w, h, x, e => by
    have hl : w.len = v.len := by obtain ⟨_, _, _, _, h3, _⟩ := h; exact h3
    simp only [cDeser, hl] at e ⊢
    cases hs : choiceLoop (fieldsSelect fs) (v.len + 1) v 0 with
    | error err => rw [hs] at e; cases e
    | ok st =>
      rw [choiceLoop_emb (fieldsSelect fs) (fieldsSelect_emb fs) _ _ _ _ h _ hs]
      rw [hs] at e
      exact e

theorem tDeser_emb : (t : Ty) → (n : Nat) → (v w : View) → Emb v w → ∀ x,
    tDeser t n v = .ok x → tDeser t n w = .ok x
  | .unit, _, _, _, _, _, e => e
  | .scalar s, n, v, w, h, x, e => by
    rw [← e]
    simp only [tDeser, h.readScalar]
  | .comp c, n, v, w, h, x, e => by
    simp only [tDeser] at e ⊢
    exact cDeser_emb true c n v w h x e

theorem fieldsStep_emb : (fs : Fields) → (i n : Nat) → (v w : Option View) → (st : fs.Slots) → OEmb v w → ∀ x,
    fieldsStep fs i n v st = .ok x → fieldsStep fs i n w st = .ok x
  | .nil, _, _, _, _, _, _, _, e => e
  | .cons i r t rest, index, n, v, w, (o, os), h, x, e => by
    have ih := fieldsStep_emb rest index n v w os h
    have heq : ∀ u, fieldsStep (.cons i r t rest) index n u (o, os) =
        if index = i then
          match u with
          | none => .error .range
          | some v =>
            match tDeser t n v with
            | .error e => .error e
            | .ok (off, x) => .ok (some (off, (some x, os)))
        else
          match fieldsStep rest index n u os with
          | .error e => .error e
          | .ok none => .ok none
          | .ok (some (off, os)) => .ok (some (off, (o, os))) := by
      intro u; cases u <;> rfl
    have e' := (heq v).symm.trans e
    refine (heq w).trans ?_
    by_cases hi : index = i
    · rw [if_pos hi] at e' ⊢
      cases v with
      | none => cases e'
      | some v' =>
        obtain ⟨w', hw', hemb⟩ := h v' rfl
        rw [hw']
        simp only at e' ⊢
        cases hd : tDeser t n v' with
        | error err => rw [hd] at e'; cases e'
        | ok q =>
          rw [hd] at e'
          rw [tDeser_emb t n v' w' hemb _ hd]
          exact e'
    · rw [if_neg hi] at e' ⊢
      cases hd : fieldsStep rest index n v os with
      | error err => rw [hd] at e'; cases e'
      | ok q =>
        rw [hd] at e'
        rw [ih _ hd]
        exact e'

theorem fieldsSelect_emb : (fs : Fields) → (i n : Nat) → (v w : Option View) → OEmb v w → ∀ x,
    fieldsSelect fs i n v = .ok x → fieldsSelect fs i n w = .ok x
  | .nil, _, _, _, _, _, _, e => e
  | .cons i r t rest, index, n, v, w, h, x, e => by
    have ih := fieldsSelect_emb rest index n v w h
    rw [fieldsSelect.eq_def] at e ⊢
    dsimp only at e ⊢
    by_cases hi : index = i
    · rw [if_pos hi] at e ⊢
      cases v with
      | none => cases e
      | some v' =>
        obtain ⟨w', hw', hemb⟩ := h v' rfl
        rw [hw']
        simp only at e ⊢
        cases hd : tDeser t n v' with
        | error err => rw [hd] at e; cases e
        | ok q =>
          rw [hd] at e
          rw [tDeser_emb t n v' w' hemb _ hd]
          exact e
    · rw [if_neg hi] at e ⊢
      cases hd : fieldsSelect rest index n v with
      | error err => rw [hd] at e; cases e
      | ok q =>
        rw [hd] at e
        rw [ih _ hd]
        exact e
end

theorem deserializeView_emb (c : CTy) (v w : View) (h : Emb v w) (x : c.Msg .inn)
    (e : deserializeView c v = .ok x) : deserializeView c w = .ok x := by
  have hl : w.len = v.len := by obtain ⟨_, _, _, _, h3, _⟩ := h; exact h3
  unfold deserializeView at e ⊢
  rw [hl]
  cases hd : cDeser false c v.len v with
  | error err => rw [hd] at e; cases e
  | ok q =>
    rw [cDeser_emb false c _ v w h _ hd]
    rw [hd] at e
    exact e

end Typical.Ts
