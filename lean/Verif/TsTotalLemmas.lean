import Verif.TypeScript

/-!
# Helper lemmas: the loops of the TypeScript decoder end

Main result: `Ts.deserializeView_fuel`.
-/

namespace Typical.Ts

theorem getUint8_lt {v : View} {off : Nat} {b : UInt8} (h : v.getUint8 off = some b) : off < v.len := by
  unfold View.getUint8 at h
  split at h
  · omega
  · cases h

theorem deserializeVarint_lt {v : View} {off o x : Nat} (h : deserializeVarint v off = some (o, x)) :
    off < v.len ∧ off < o := by
  unfold deserializeVarint at h
  split at h
  · cases h
  · next hb =>
    have := getUint8_lt hb
    dsimp only at h
    split at h
    · cases h
    · split at h <;> cases h <;> omega

theorem deserializeFieldHeader_lt {v : View} {off o i n : Nat}
    (h : deserializeFieldHeader v off = some (o, i, n)) : off < v.len ∧ off < o := by
  unfold deserializeFieldHeader at h
  split at h
  · cases h
  · next hv =>
    have := deserializeVarint_lt hv
    dsimp only at h
    split at h
    · cases h; exact this
    · cases h; exact this
    · split at h
      · cases h
      · cases h; exact this
    · split at h
      · cases h
      · next hv2 =>
        have := deserializeVarint_lt hv2
        cases h; omega

theorem readScalar_lt {v : View} {off o : Nat} {s : Scalar} {x : s.Val}
    (h : readScalar false 0 v off s = some (o, x)) : off < v.len ∧ off < o := by
  have h64 : ∀ {o n}, readU64 false 0 v off = some (o, n) → off < v.len ∧ off < o := by
    intro o n h
    simp only [readU64, Bool.false_eq_true, if_false] at h
    exact deserializeVarint_lt h
  cases s
  case f64 =>
    have h : getFloat64 v off = some (o, x) := h
    unfold getFloat64 at h
    split at h
    · cases h
    · next hb =>
      cases h
      have : off < v.len := by
        unfold View.getBytes at hb
        split at hb
        · next hg _ => exact getUint8_lt hg
        · cases hb
      omega
  all_goals
    simp only [readScalar] at h
    split at h
    · cases h
    · next hr =>
      cases h
      exact h64 hr

theorem scalarLoop_fuel {α : Type} (v : View) (elem : Nat → Option (Nat × α))
    (he : ∀ off o a, elem off = some (o, a) → off < v.len ∧ off < o) :
    ∀ (fuel off : Nat), v.len - off < fuel → scalarLoop elem fuel off ≠ .error .fuel := by
  intro fuel
  induction fuel with
  | zero => intro off h; omega
  | succ fuel ih =>
    intro off h
    unfold scalarLoop
    split
    · nofun
    · next o a he' =>
      have := he off o a he'
      have := ih o (by omega)
      split
      · next e heq => rw [heq] at this; intro h; cases h; exact this rfl
      · nofun

theorem arrayLoop_fuel {α : Type} (elem : Nat → View → Res α) (v : View)
    (he : ∀ n w, elem n w ≠ .error .fuel) :
    ∀ (fuel off : Nat), v.len - off < fuel → arrayLoop elem v fuel off ≠ .error .fuel := by
  intro fuel
  induction fuel with
  | zero => intro off h; omega
  | succ fuel ih =>
    intro off h
    unfold arrayLoop
    split
    · nofun
    · next o n hv =>
      have := deserializeVarint_lt hv
      split
      · nofun
      · next w _ =>
        have h1 := he n w
        split
        · next e heq => rw [heq] at h1; intro h; cases h; exact h1 rfl
        · next o' a heq =>
          have := ih (o' + o) (by omega)
          split
          · next e heq => rw [heq] at this; intro h; cases h; exact this rfl
          · nofun

theorem structLoop_fuel {σ : Type} (step : Nat → Nat → Option View → σ → Except Err (Option (Nat × σ))) (v : View)
    (he : ∀ i n w st, step i n w st ≠ .error .fuel) :
    ∀ (fuel off : Nat) (st : σ), v.len - off < fuel → structLoop step v fuel off st ≠ .error .fuel := by
  intro fuel
  induction fuel with
  | zero => intro off st h; omega
  | succ fuel ih =>
    intro off st h
    unfold structLoop
    split
    · nofun
    · next o i n hv =>
      have := deserializeFieldHeader_lt hv
      have h1 := he i n (View.new v.buf (v.base + o) n) st
      split
      · next e heq => rw [heq] at h1; intro h; cases h; exact h1 rfl
      · exact ih _ st (by omega)
      · next o' st' heq => exact ih _ st' (by omega)

theorem choiceLoop_fuel {α β : Type} (step : Nat → Nat → Option View → Except Err (Option (Nat × (α ⊕ β))))
    (he : ∀ i n w, step i n w ≠ .error .fuel) :
    ∀ (fuel : Nat) (v : View) (off : Nat), v.len - off < fuel → choiceLoop step fuel v off ≠ .error .fuel := by
  intro fuel
  induction fuel with
  | zero => intro v off h; omega
  | succ fuel ih =>
    intro v off h
    unfold choiceLoop
    split
    · nofun
    · next o i n hv =>
      have := deserializeFieldHeader_lt hv
      have h1 := he i n (View.new v.buf (v.base + o) n)
      split
      · next e heq => rw [heq] at h1; intro h; cases h; exact h1 rfl
      · exact ih v _ (by omega)
      · nofun
      · next o' a heq =>
        split
        · split
          · nofun
          · next w hw =>
            unfold View.new at hw
            split at hw
            · cases hw
              have := ih ⟨v.buf, v.base + (o' + o), v.len - (o' + o)⟩ 0 (by simp only; omega)
              split
              · next e heq => rw [heq] at this; intro h; cases h; exact this rfl
              · nofun
            · cases hw
        · nofun

mutual
theorem cDeser_fuel (isField : Bool) : (c : CTy) → (n : Nat) → (v : View) → cDeser isField c n v ≠ .error .fuel
  | .bytes, _, _ => by nofun
  | .string, _, _ => by nofun
  | .units, n, v => by
    unfold cDeser
    split
    · nofun
    · split <;> nofun
  | .scalars s, _, v => by
    rw [cDeser]
    exact scalarLoop_fuel v (fun o => readScalar false 0 v o s) (fun off o a h => readScalar_lt h) _ 0 (by omega)
  | .array c, _, v => by
    rw [cDeser]
    exact arrayLoop_fuel (cDeser false c) v (cDeser_fuel false c) _ 0 (by omega)
  | .struct fs, _, v => by
    have := structLoop_fuel (fieldsStep fs) v (fieldsStep_fuel fs) (v.len + 1) 0 fs.emptySlots (by omega)
    unfold cDeser
    split
    · next e heq => rw [heq] at this; intro h; cases h; exact this rfl
    · split <;> nofun
  | .choice fs, _, v => by
    have := choiceLoop_fuel (fieldsSelect fs) (fieldsSelect_fuel fs) (v.len + 1) v 0 (by omega)
    unfold cDeser
    split
    · next e heq => rw [heq] at this; intro h; cases h; exact this rfl
    · nofun

theorem tDeser_fuel : (t : Ty) → (n : Nat) → (v : View) → tDeser t n v ≠ .error .fuel
  | .unit, _, _ => by nofun
  | .scalar s, n, v => by
    unfold tDeser orRange
    split <;> nofun
  | .comp c, n, v => by
    unfold tDeser
    exact cDeser_fuel true c n v

theorem fieldsStep_fuel : (fs : Fields) → (i n : Nat) → (v : Option View) → (st : fs.Slots) →
    fieldsStep fs i n v st ≠ .error .fuel
  | .nil, _, _, _, _ => by nofun
  | .cons i r t rest, index, n, v, (o, os) => by
    have ih := fieldsStep_fuel rest index n v os
    cases v with
    | none =>
      simp only [fieldsStep]
      split
      · nofun
      · split
        · next e heq => rw [heq] at ih; intro h; cases h; exact ih rfl
        · nofun
        · nofun
    | some w =>
      have ht := tDeser_fuel t n w
      simp only [fieldsStep]
      split
      · split
        · next e heq => rw [heq] at ht; intro h; cases h; exact ht rfl
        · nofun
      · split
        · next e heq => rw [heq] at ih; intro h; cases h; exact ih rfl
        · nofun
        · nofun

theorem fieldsSelect_fuel : (fs : Fields) → (i n : Nat) → (v : Option View) →
    fieldsSelect fs i n v ≠ .error .fuel
  | .nil, _, _, _ => by nofun
  | .cons i r t rest, index, n, v => by
    rw [fieldsSelect.eq_def]
    dsimp only
    split
    · split
      · nofun
      · next w =>
        have := tDeser_fuel t n w
        split
        · next e heq => rw [heq] at this; intro h; cases h; exact this rfl
        · split <;> nofun
    · have := fieldsSelect_fuel rest index n v
      split
      · next e heq => rw [heq] at this; intro h; cases h; exact this rfl
      · nofun
      · nofun
      · nofun
end

theorem deserializeView_fuel (c : CTy) (v : View) : deserializeView c v ≠ .error .fuel := by
  have := cDeser_fuel false c v.len v
  unfold deserializeView
  split
  · next e heq => rw [heq] at this; intro h; cases h; exact this rfl
  · nofun

end Typical.Ts
