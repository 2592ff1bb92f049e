import Verif.TsWireLemmas
import Verif.CutLemmas

/-!
# Helper lemmas: the TypeScript decoder on layouts which are cut off
-/

namespace Typical.Ts
open Spec

theorem header_beyond {v : View} {o : Nat} (h : v.len ≤ o) : deserializeFieldHeader v o = none := by
  have : v.getUint8 o = none := by unfold View.getUint8; rw [if_neg (by omega)]
  simp [deserializeFieldHeader, deserializeVarint, this]

/-- A field which is cut off: its header cannot be read, or its value does not fit into the buffer. -/
theorem header_cut {v : View} {off i : Nat} {t : Tree} {q : Bytes} (hb : v.base + v.len = v.buf.length) (hi : i < 2 ^ 62)
    (hn : (t.wire true).length < 2 ^ 64) (h : Holds v off q) (hq : q <+: Spec.field i t.isInteger (t.wire true))
    (hl : q.length < (Spec.field i t.isInteger (t.wire true)).length)
    (hint : t.isInteger = true → (t.wire true).length ≠ 0 → (t.wire true).length ≠ 8 → ∃ k < 2 ^ 64, t.wire true = varintBytes k) :
    (deserializeFieldHeader v off = none ∧
      ¬ ((Spec.header i (t.wire true).length t.isInteger).length ≤ q.length ∧
        (t.Peeked → (Spec.header i (t.wire true).length t.isInteger).length < q.length))) ∨
    (((Spec.header i (t.wire true).length t.isInteger).length ≤ q.length ∧
        (t.Peeked → (Spec.header i (t.wire true).length t.isInteger).length < q.length)) ∧
      q.length ≠ 0 ∧
      ∃ off', deserializeFieldHeader v off = some (off', i, (t.wire true).length) ∧
        View.new v.buf (v.base + off') (t.wire true).length = none ∧ v.len ≤ off' + (t.wire true).length) := by
  have e := deserializeFieldHeader_holds h deserializeVarint_suffix
  rcases deserializeFieldHeader_cut i t.isInteger (t.wire true) q hi hn hint hq hl with ⟨h1, h2, h3⟩ | ⟨x, h1, h2, h3, h4, h5⟩
  · left
    rw [h1] at e
    refine ⟨e, fun ⟨h4, h5⟩ => ?_⟩
    rcases h3 with h3 | h3
    · omega
    · have := h2.length_le
      have := h5 h3
      omega
  · right
    rw [h5] at e
    have hlen : q.length = (Spec.header i (t.wire true).length t.isInteger).length + x.length := by
      rw [h1, List.length_append]
    have h2' := h.2.1
    have hpos : 0 < (Spec.header i (t.wire true).length t.isInteger).length := by
      unfold Spec.header
      rw [List.length_append]
      have := varintBytes_pos (4 * i + sizeMode (t.wire true).length t.isInteger)
      omega
    refine ⟨⟨by omega, fun hp => ?_⟩, by omega, _, e, ?_, ?_⟩
    · have := h4 hp
      have : 0 < x.length := List.length_pos_iff.mpr this
      omega
    · unfold View.new
      rw [if_neg]
      dsimp only
      omega
    · dsimp only
      omega

theorem structLoop_tail {σ : Type} (v : View) (step : Nat → Nat → Option View → σ → Except Err (Option (Nat × σ)))
    (ref : σ → Nat × Tree → Option σ) (l : List (Nat × Tree)) (q : Bytes) (res : σ → Except Err σ)
    (hi : ∀ p ∈ l, p.1 < 2 ^ 62)
    (hstep : ∀ p ∈ l, ∀ st w, Holds w 0 (p.2.wire true) → StepAgrees
      (step p.1 (p.2.wire true).length (some w) st) w.len st (ref st p))
    (htail : ∀ fuel off st, q.length < fuel → Holds v off q → structLoop step v fuel off st = res st) :
    ∀ (fuel off : Nat) (st st' : σ), (Tree.wireFields l).length + q.length < fuel → (Tree.wireFields l).length < 2 ^ 64 →
      Holds v off (Tree.wireFields l ++ q) → l.foldlM ref st = some st' → structLoop step v fuel off st = res st' := by
  induction l with
  | nil =>
    intro fuel off st st' h _ hh hf
    cases hf
    exact htail fuel off st (by simp only [Tree.wireFields, List.length_nil] at h; omega) hh
  | cons p l ih =>
    intro fuel off st st' h hlt hh hf
    cases fuel with
    | zero => omega
    | succ fuel =>
      obtain ⟨i, t⟩ := p
      have hp := field_pos i t.isInteger (t.wire true)
      rw [Tree.wireFields, List.length_append] at h hlt
      rw [Tree.wireFields, List.append_assoc] at hh
      have ih := ih (fun p hp => hi p (by simp [hp])) (fun p hp => hstep p (by simp [hp])) fuel
      obtain ⟨off', e1, _, hh'⟩ := deserializeFieldHeader_wire (hi (i, t) (by simp)) (by omega) hh
      have hs := hstep (i, t) (by simp) st _ hh'.new.2
      simp only at hs
      rw [List.foldlM_cons] at hf
      rw [structLoop, e1]
      simp only [hh'.new.1]
      rcases hs with ⟨h1, h2⟩ | ⟨s1, h1, h2⟩ | ⟨h1, h2⟩
      · rw [h2] at hf
        rw [h1]
        exact ih _ st st' (by omega) (by omega) hh'.append hf
      · rw [h2] at hf
        rw [h1]
        simp only [Nat.add_comm _ off']
        exact ih _ s1 st' (by omega) (by omega) hh'.append hf
      · rw [h2] at hf; cases hf

theorem choiceLoop_tail {α β : Type} (step : Nat → Nat → Option View → Except Err (Option (Nat × (α ⊕ β))))
    (ref : Nat → Tree → Option (Option (α ⊕ β))) (l : List (Nat × Tree)) (q : Bytes)
    (hi : ∀ p ∈ l, p.1 < 2 ^ 62)
    (hstep : ∀ p ∈ l, ∀ w, Holds w 0 (p.2.wire true) → SelectAgrees
      (step p.1 (p.2.wire true).length (some w)) w.len (ref p.1 p.2))
    (href : ∀ p ∈ l, ref p.1 p.2 ≠ some none)
    (htail : ∀ fuel v off, q.length < fuel → v.base + v.len = v.buf.length → Holds v off q →
      choiceLoop step fuel v off = .error .range) :
    ∀ (fuel : Nat) (v : View) (off : Nat), (Tree.wireFields l).length + q.length < fuel → v.base + v.len = v.buf.length →
      (Tree.wireFields l).length < 2 ^ 64 → Holds v off (Tree.wireFields l ++ q) →
      choiceLoop step fuel v off = orRange (readChain ref l) := by
  induction l with
  | nil =>
    intro fuel v off h hb _ hh
    rw [htail fuel v off (by simp only [Tree.wireFields, List.length_nil] at h; omega) hb hh]
    rfl
  | cons p l ih =>
    intro fuel v off h hb hlt hh
    cases fuel with
    | zero => omega
    | succ fuel =>
      obtain ⟨i, t⟩ := p
      have hp := field_pos i t.isInteger (t.wire true)
      rw [Tree.wireFields, List.length_append] at h hlt
      rw [Tree.wireFields, List.append_assoc] at hh
      have ih := ih (fun p hp => hi p (by simp [hp])) (fun p hp => hstep p (by simp [hp])) (fun p hp => href p (by simp [hp])) fuel
      obtain ⟨off', e1, _, hh'⟩ := deserializeFieldHeader_wire (hi (i, t) (by simp)) (by omega) hh
      have hs := hstep (i, t) (by simp) _ hh'.new.2
      have hne := href (i, t) (by simp)
      simp only at hs hne
      rw [readChain, choiceLoop, e1]
      simp only [hh'.new.1]
      cases hr : ref i t with
      | none =>
        rw [hr] at hs
        simp only [SelectAgrees] at hs
        rw [hs]
        exact ih v _ (by omega) hb (by omega) hh'.append
      | some o =>
        rw [hr] at hs hne
        cases o with
        | none => exact absurd rfl hne
        | some ab =>
          simp only [SelectAgrees] at hs
          rw [hs]
          cases ab with
          | inr b => rfl
          | inl a =>
            obtain ⟨r1, r2, r3⟩ := hh'.append.rest
            simp only [Nat.add_comm _ off']
            rw [if_pos r1, r2]
            have hlen := hh'.append.2.1
            have ih := ih _ 0 (by omega) (by dsimp only; omega) (by omega) r3
            simp only
            rw [ih]
            cases readChain ref l <;> rfl

theorem fieldsStep_beyond : (fs : Fields) → (j n : Nat) → (st : fs.Slots) →
    fieldsStep fs j n none st = if j ∈ fs.indices then .error .range else .ok none
  | .nil, j, n, st => rfl
  | .cons i r t rest, j, n, (o, os) => by
    rw [fieldsStep]
    by_cases h : j = i
    · rw [if_pos h, if_pos (by simp [Fields.indices, h])]
    · rw [if_neg h, fieldsStep_beyond rest j n os]
      by_cases hm : j ∈ rest.indices
      · rw [if_pos hm, if_pos (by simp [Fields.indices, hm])]
      · rw [if_neg hm, if_neg (by simp [Fields.indices, hm, h])]

theorem fieldsSelect_beyond : (fs : Fields) → (j n : Nat) →
    fieldsSelect fs j n none = .error .range ∨ fieldsSelect fs j n none = .ok none
  | .nil, j, n => .inr rfl
  | .cons i r t rest, j, n => by
    rw [fieldsSelect]
    by_cases h : j = i
    · rw [if_pos h]; exact .inl rfl
    · rw [if_neg h]
      rcases fieldsSelect_beyond rest j n with e | e <;> rw [e]
      · exact .inl rfl
      · exact .inr rfl

end Typical.Ts

namespace Typical

/-- Every strict prefix of laid out fields consists of complete fields and a part of another one. -/
theorem wireFields_cut : (l : List (Nat × Tree)) → (p : Bytes) → p <+: Tree.wireFields l → p.length < (Tree.wireFields l).length →
    ∃ before i t after q, l = before ++ (i, t) :: after ∧ p = Tree.wireFields before ++ q ∧
      q <+: Spec.field i t.isInteger (t.wire true) ∧ q.length < (Spec.field i t.isInteger (t.wire true)).length
  | [], p, _, h => by simp [Tree.wireFields] at h
  | (i, t) :: l, p, h, hl => by
    rw [Tree.wireFields] at h hl
    rcases prefix_split h with ⟨h1, h2⟩ | ⟨p', rfl, h1⟩
    · exact ⟨[], i, t, l, p, rfl, rfl, h1, h2⟩
    · rw [List.length_append, List.length_append] at hl
      obtain ⟨before, j, x, after, q, h3, h4, h5⟩ := wireFields_cut l p' h1 (by omega)
      refine ⟨(i, t) :: before, j, x, after, q, by rw [h3]; rfl, ?_, h5⟩
      rw [h4, Tree.wireFields, List.append_assoc]

theorem Fields.tsStep_isSome : (gs : Fields) → (st : gs.Slots) → (p : Nat × Tree) →
    (∀ r t, gs.lookup p.1 = some (r, t) → (t.read p.2).isSome) → ∃ st', Ts.stepTree gs st p = some st'
  | .nil, st, _, _ => ⟨st, rfl⟩
  | .cons i r t rest, (o, os), p, h => by
    rw [Ts.stepTree]
    by_cases e : p.1 = i
    · rw [if_pos e]
      obtain ⟨v, hv⟩ := Option.isSome_iff_exists.1 (h r t (by rw [e, Fields.lookup_cons_self]))
      rw [hv]
      exact ⟨_, rfl⟩
    · rw [if_neg e]
      obtain ⟨os', h'⟩ := Fields.tsStep_isSome rest os p (fun r' t' hl => h r' t' (by rw [Fields.lookup, if_neg e]; exact hl))
      rw [h']
      exact ⟨_, rfl⟩

theorem Fields.tsFold_isSome (gs : Fields) : (l : List (Nat × Tree)) → (st : gs.Slots) →
    (∀ p ∈ l, ∀ r t, gs.lookup p.1 = some (r, t) → (t.read p.2).isSome) → ∃ st', l.foldlM (Ts.stepTree gs) st = some st'
  | [], st, _ => ⟨st, rfl⟩
  | p :: l, st, h => by
    obtain ⟨s1, h1⟩ := Fields.tsStep_isSome gs st p (h p (by simp))
    obtain ⟨s2, h2⟩ := Fields.tsFold_isSome gs l s1 (fun p hp => h p (by simp [hp]))
    exact ⟨s2, by rw [List.foldlM_cons, h1]; exact h2⟩

/-- A compatible reader can read each field of a message which it knows. -/
theorem CTy.CanRead.read_fields (w : CTy) (hw : w.WF) (gs : Fields) (hg : gs.WF)
    (hc : w.CanRead (.struct gs) ∨ w.CanRead (.choice gs)) (m : w.Msg .out) {l : List (Nat × Tree)} (hl : w.tree m = .fields l) :
    ∀ p ∈ l, ∀ r t, gs.lookup p.1 = some (r, t) → (t.read p.2).isSome := by
  cases w <;> simp only [CTy.tree, Tree.fields.injEq, reduceCtorEq] at hl
  · rename_i fs
    have hs : fs.CanReadShared gs := by
      simp only [CTy.CanRead] at hc
      rcases hc with hc | hc <;> exact hc.1
    simp only [CTy.WF] at hw
    subst hl
    exact Fields.CanReadShared.read_struct fs hw.2 gs hg hs m
  · rename_i fs
    have hs : fs.CanReadShared gs := by
      simp only [CTy.CanRead] at hc
      rcases hc with hc | hc <;> exact hc.1
    simp only [CTy.WF] at hw
    subst hl
    exact chain_mem_toList _ _ _ (Fields.CanReadShared.read_sel fs hw.2 gs hg hs) (Fields.CanReadShared.read_sel fs hw.2 gs hg hs) m

theorem Fields.readVariant_ne (gs : Fields) (p : Nat × Tree) (h : ∀ r t, gs.lookup p.1 = some (r, t) → (t.read p.2).isSome) :
    gs.readVariant p.1 p.2 ≠ some none := by
  by_cases hi : p.1 ∈ gs.indices
  · obtain ⟨r, t, hl⟩ := Fields.lookup_of_mem hi
    have hk := Fields.readVariant_known gs p.1 p.2 r t hl
    obtain ⟨v, hv⟩ := Option.isSome_iff_exists.1 (h r t hl)
    rw [hv] at hk
    obtain ⟨x, h3, -⟩ := hk
    rw [h3]
    exact fun h => by cases h
  · rw [Fields.readVariant_unknown gs _ _ hi]
    exact fun h => by cases h

end Typical
