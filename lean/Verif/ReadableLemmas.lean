import Verif.ChangeLemmas
import Verif.Spec.Readable
import Verif.Spec.JsSafe

/-!
# Helper lemmas: `Readable` is exact
-/

namespace Typical
open Spec

/-! ### Default messages -/

/-- A default value of each scalar type. -/
def Scalar.default : (s : Scalar) → s.Val
  | .bool => false
  | .s64 => (0 : Int64)
  | .u64 => (0 : UInt64)
  | .f64 => (0 : UInt64)

theorem JsSafe.append : {l l' : List (Nat × Tree)} → Tree.JsSafeFields l → Tree.JsSafeFields l' → Tree.JsSafeFields (l ++ l')
  | [], _, _, h => h
  | (_, _) :: _, _, h, h' => ⟨h.1, JsSafe.append h.2 h'⟩

mutual
/-- Productive types have messages which JavaScript can represent. -/
theorem CTy.Productive.safe : (c : CTy) → c.Productive → ∃ m : c.Msg .out, (c.tree m).JsSafe
  | .bytes, _ => ⟨([] : Bytes), trivial⟩
  | .string, _ => ⟨(⟨[], rfl⟩ : Utf8), show ¬ [0xEF, 0xBB, 0xBF] <+: ([] : Bytes) by simp⟩
  | .units, _ => ⟨(0 : UInt64), show (0 : UInt64).toNat < 2 ^ 32 by decide⟩
  | .scalars s, _ => ⟨([] : List s.Val), trivial⟩
  | .array c, _ => ⟨([] : List (c.Msg .out)), trivial⟩
  | .struct fs, h => by
    simp only [CTy.Productive] at h
    obtain ⟨m, -, hm⟩ := Fields.Productive.default fs h
    exact ⟨m, hm⟩
  | .choice fs, h => by
    simp only [CTy.Productive] at h
    obtain ⟨i, r, t, hl, hr⟩ := h.1
    obtain ⟨v, hv⟩ := Fields.Productive.lookup_safe fs h.2 i r t hl
    have : ∀ (fs : Fields), fs.lookup i = some (r, t) → ∃ p : fs.Sel .out false, (fs.treeSel p).2.JsSafe := by
      intro fs
      induction fs using Fields.rec (motive_1 := fun _ => True) (motive_2 := fun _ => True) with
      | nil => intro h; simp [Fields.lookup] at h
      | cons j r' t' rest _ ih =>
        intro h
        rw [Fields.lookup] at h
        split at h
        · cases h
          exact ⟨(.inl ⟨v, by rw [hr]; rfl⟩ : Guard (r.hasFallback .out = false) (t.Msg .out) ⊕ rest.Sel .out false),
            by simpa [Fields.treeSel] using hv⟩
        · obtain ⟨p, hp⟩ := ih h
          exact ⟨(.inr p : Guard (r'.hasFallback .out = false) (t'.Msg .out) ⊕ rest.Sel .out false), by simpa [Fields.treeSel] using hp⟩
      | _ => trivial
    obtain ⟨p, hp⟩ := this fs hl
    refine ⟨(Chain.last p : Chain (fs.Sel .out true) (fs.Sel .out false)), ?_⟩
    simp only [CTy.tree, Chain.toList]
    exact ⟨hp, trivial⟩

theorem Ty.Productive.safe : (t : Ty) → t.Productive → ∃ m : t.Msg .out, (t.tree m).JsSafe
  | .unit, _ => ⟨(), trivial⟩
  | .scalar s, _ => ⟨s.default, trivial⟩
  | .comp c, h => by simp only [Ty.Productive] at h; exact CTy.Productive.safe c h

/-- The message with just the fields which are not optional. -/
theorem Fields.Productive.default : (fs : Fields) → fs.Productive →
    ∃ m : fs.Struct .out, (∀ p ∈ fs.treeStruct m, fs.Has p.1 (· ≠ .optional) ∨ ¬ fs.indices.Nodup) ∧ Tree.JsSafeFields (fs.treeStruct m)
  | .nil, _ => ⟨(), by simp [Fields.treeStruct], trivial⟩
  | .cons i r t rest, h => by
    simp only [Fields.Productive] at h
    obtain ⟨m, hm, hsafe⟩ := Fields.Productive.default rest h.2
    obtain ⟨v, hv⟩ := Ty.Productive.safe t h.1
    have key : ∀ slot : Slot (r.mayOmit .out) (t.Msg .out), (∀ p, Slot.get? slot = some p → r ≠ .optional ∧ (t.tree p).JsSafe) →
        ∃ m : (Fields.cons i r t rest).Struct .out, (∀ p ∈ (Fields.cons i r t rest).treeStruct m,
          (Fields.cons i r t rest).Has p.1 (· ≠ .optional) ∨ ¬ (Fields.cons i r t rest).indices.Nodup) ∧
          Tree.JsSafeFields ((Fields.cons i r t rest).treeStruct m) := by
      intro slot hs
      refine ⟨(slot, m), ?_, ?_⟩
      rotate_left
      · simp only [Fields.treeStruct]
        refine JsSafe.append ?_ hsafe
        cases hg : Slot.get? slot with
        | none => trivial
        | some q => exact ⟨(hs q hg).2, trivial⟩
      intro p hp
      by_cases hn : (Fields.cons i r t rest).indices.Nodup
      · left
        simp only [Fields.treeStruct, List.mem_append] at hp
        rcases hp with hp | hp
        · cases hg : Slot.get? slot with
          | none => rw [hg] at hp; cases hp
          | some q =>
            rw [hg] at hp
            simp only [List.mem_singleton] at hp
            subst hp
            exact ⟨r, t, Fields.lookup_cons_self _ _ _ _, (hs q hg).1⟩
        · simp only [Fields.indices, List.nodup_cons] at hn
          rcases hm p hp with ⟨r', t', h1, h2⟩ | h1
          · exact ⟨r', t', by rw [Fields.lookup_cons_of_mem hn.1 (Fields.lookup_mem h1)]; exact h1, h2⟩
          · exact absurd hn.2 h1
      · exact .inr hn
    cases r with
    | optional => exact key (none : Option (t.Msg .out)) (fun p hp => by cases hp)
    | asymmetric => exact key v (fun p hp => by cases hp; exact ⟨by simp, hv⟩)
    | required => exact key v (fun p hp => by cases hp; exact ⟨by simp, hv⟩)

theorem Fields.Productive.lookup_safe : (fs : Fields) → fs.Productive → ∀ i r t, fs.lookup i = some (r, t) →
    ∃ v : t.Msg .out, (t.tree v).JsSafe
  | .nil, _, _, _, _, h => by simp [Fields.lookup] at h
  | .cons j r' t' rest, hp, i, r, t, h => by
    simp only [Fields.Productive] at hp
    rw [Fields.lookup] at h
    split at h
    · cases h; exact Ty.Productive.safe t' hp.1
    · exact Fields.Productive.lookup_safe rest hp.2 i r t h
end

theorem CTy.Productive.nonempty (c : CTy) (h : c.Productive) : Nonempty (c.Msg .out) := let ⟨m, _⟩ := CTy.Productive.safe c h; ⟨m⟩
theorem Ty.Productive.nonempty (t : Ty) (h : t.Productive) : Nonempty (t.Msg .out) := let ⟨m, _⟩ := Ty.Productive.safe t h; ⟨m⟩
theorem Fields.Productive.lookup_nonempty (fs : Fields) (hp : fs.Productive) (i : Nat) (r : Rule) (t : Ty) (h : fs.lookup i = some (r, t)) :
    Nonempty (t.Msg .out) := let ⟨v, _⟩ := Fields.Productive.lookup_safe fs hp i r t h; ⟨v⟩

/-- A slot which is filled. -/
def Slot.full {α : Type} (a : α) : (b : Bool) → Slot b α
  | true => some a
  | false => a

theorem Slot.full_get? {α : Type} (a : α) (b : Bool) : Slot.get? (Slot.full a b) = some a := by cases b <;> rfl

/-- A message which contains a given value in a given field. -/
theorem Fields.struct_with : (fs : Fields) → fs.Productive → ∀ i r t, fs.lookup i = some (r, t) → ∀ v : t.Msg .out, (t.tree v).JsSafe →
    ∃ m : fs.Struct .out, (i, t.tree v) ∈ fs.treeStruct m ∧ Tree.JsSafeFields (fs.treeStruct m)
  | .nil, _, _, _, _, h, _, _ => by simp [Fields.lookup] at h
  | .cons j r' t' rest, hp, i, r, t, h, v, hv => by
    simp only [Fields.Productive] at hp
    rw [Fields.lookup] at h
    split at h
    · rename_i e
      cases h
      obtain ⟨m, -, hm⟩ := Fields.Productive.default rest hp.2
      exact ⟨(Slot.full v _, m), by simp [Fields.treeStruct, Slot.full_get?, e], by
        simp only [Fields.treeStruct, Slot.full_get?]; exact ⟨hv, hm⟩⟩
    · obtain ⟨m, hm, hm'⟩ := Fields.struct_with rest hp.2 i r t h v hv
      obtain ⟨w, hw⟩ := Ty.Productive.safe t' hp.1
      exact ⟨(Slot.full w _, m), by simp [Fields.treeStruct, hm], by
        simp only [Fields.treeStruct, Slot.full_get?]; exact ⟨hw, hm'⟩⟩

/-- A variant with a given value. -/
theorem Fields.sel_with {d : Dir} : (fs : Fields) → ∀ i r t, fs.lookup i = some (r, t) → ∀ v : t.Msg d, ∀ fb, r.hasFallback d = fb →
    ∃ p : fs.Sel d fb, fs.treeSel p = (i, t.tree v)
  | .nil, _, _, _, h, _, _, _ => by simp [Fields.lookup] at h
  | .cons j r' t' rest, i, r, t, h, v, fb, hfb => by
    rw [Fields.lookup] at h
    split at h
    · rename_i e
      cases h
      exact ⟨(.inl ⟨v, hfb⟩ : Guard (r'.hasFallback d = fb) (t'.Msg d) ⊕ rest.Sel d fb), by simp [Fields.treeSel, e]⟩
    · obtain ⟨p, hp⟩ := Fields.sel_with rest i r t h v fb hfb
      exact ⟨(.inr p : Guard (r'.hasFallback d = fb) (t'.Msg d) ⊕ rest.Sel d fb), by simp [Fields.treeSel, hp]⟩

/-- A chain which contains a given value in a given field. -/
theorem Fields.chain_with (fs : Fields) (hp : (CTy.choice fs).Productive) (i : Nat) (r : Rule) (t : Ty)
    (h : fs.lookup i = some (r, t)) (v : t.Msg .out) (hv : (t.tree v).JsSafe) :
    ∃ m : Chain (fs.Sel .out true) (fs.Sel .out false), ∃ l, m.toList fs.treeSel fs.treeSel = (i, t.tree v) :: l ∧ Tree.JsSafeFields l := by
  cases hf : r.hasFallback .out with
  | false =>
    obtain ⟨p, e⟩ := fs.sel_with i r t h v false hf
    exact ⟨.last p, [], by simp [Chain.toList, e], trivial⟩
  | true =>
    obtain ⟨p, e⟩ := fs.sel_with i r t h v true hf
    obtain ⟨m, hm⟩ := CTy.Productive.safe _ hp
    exact ⟨.more p m, _, by simp only [Chain.toList, e], hm⟩

/-- The chain which consists of a required field. -/
theorem Fields.chain_single (fs : Fields) (hp : fs.Productive) (i : Nat) (h : fs.Has i (· = .required)) :
    ∃ m : Chain (fs.Sel .out true) (fs.Sel .out false), ∃ tr, m.toList fs.treeSel fs.treeSel = [(i, tr)] ∧ tr.JsSafe := by
  obtain ⟨r, t, hl, rfl⟩ := h
  obtain ⟨v, hv⟩ := Fields.Productive.lookup_safe fs hp i _ t hl
  obtain ⟨p, e⟩ := fs.sel_with i _ t hl v false rfl
  exact ⟨.last p, t.tree v, by simp only [Chain.toList, e], hv⟩

/-! ### What is readable -/

theorem mapM_some_mem {α β : Type} {f : α → Option β} : {l : List α} → {vs : List β} → l.mapM f = some vs →
    ∀ a ∈ l, (f a).isSome
  | [], _, _, a, ha => by cases ha
  | b :: l, vs, h, a, ha => by
    rw [List.mapM_cons] at h
    cases hb : f b with
    | none => rw [hb] at h; cases h
    | some x =>
      rw [hb] at h
      cases hl : l.mapM f with
      | none => rw [hl] at h; cases h
      | some ys =>
        rcases List.mem_cons.mp ha with rfl | ha
        · rw [hb]; rfl
        · exact mapM_some_mem hl a ha

/-- If a struct can be read then all known fields can. -/
theorem Fields.readStruct_mem : (gs : Fields) → (l : List (Nat × Tree)) → (gs.readStruct l).isSome →
    ∀ p ∈ l, ∀ r t, gs.lookup p.1 = some (r, t) → (t.read p.2).isSome
  | .nil, _, _, _, _, _, _, h => by simp [Fields.lookup] at h
  | .cons j r' t' rest, l, h, p, hp, r, t, hl => by
    simp only [Fields.readStruct] at h
    cases hm : (l.filter (fun p => p.1 == j)).mapM (fun p => Ty.read t' p.2) with
    | none => rw [hm] at h; cases h
    | some vs =>
      rw [hm] at h
      rw [Fields.lookup] at hl
      split at hl
      · rename_i e
        cases hl
        exact mapM_some_mem hm p (by rw [List.mem_filter]; simp [hp, e])
      · cases hs : rest.readStruct l with
        | none =>
          rw [hs] at h
          simp only at h
          cases h1 : Slot.ofOption (r'.mayOmit .inn) vs.head? <;> rw [h1] at h <;> cases h
        | some x => exact Fields.readStruct_mem rest l (by rw [hs]; rfl) p hp r t hl

/-- The first field of a chain which can be read can be read, if it is known. -/
theorem Fields.readChain_head (gs : Fields) (i : Nat) (tr : Tree) (l : List (Nat × Tree)) (r : Rule) (t : Ty)
    (hl : gs.lookup i = some (r, t)) :
    (readChain gs.readVariant ((i, tr) :: l)).isSome ↔
      (t.read tr).isSome ∧ (r ≠ .optional ∨ (readChain gs.readVariant l).isSome) := by
  have hk := Fields.readVariant_known gs i tr r t hl
  rw [readChain]
  cases hv : t.read tr with
  | none => rw [hv] at hk; simp only at hk; rw [hk]; simp
  | some v =>
    rw [hv] at hk
    obtain ⟨x, h3, h4⟩ := hk
    rw [h3]
    cases x with
    | inr b => simp only at h4; simp [h4.1]
    | inl a => simp only at h4; simp [h4.1]

theorem Fields.readChain_skip (gs : Fields) (i : Nat) (tr : Tree) (l : List (Nat × Tree)) (hl : gs.lookup i = none) :
    readChain gs.readVariant ((i, tr) :: l) = readChain gs.readVariant l := by
  rw [readChain, Fields.readVariant_unknown gs i tr (Fields.lookup_eq_none_iff.mp hl)]

/-- The values of all shared fields can be read. -/
def Fields.SharedOk (fs gs : Fields) : Prop :=
  ∀ i r t r' t', fs.lookup i = some (r, t) → gs.lookup i = some (r', t') → ∀ v : t.Msg .out, (t.tree v).JsSafe → (t'.read (t.tree v)).isSome

mutual
/-- `Readable` is necessary, also for the messages which JavaScript can represent. -/
theorem CTy.Readable.necessary : (w : CTy) → w.WF → w.Productive → (r : CTy) → r.WF →
    (∀ m : w.Msg .out, (w.tree m).JsSafe → (r.read (w.tree m)).isSome) → w.Readable r
  | .bytes, _, _, r, _, h => by
    have := h ([] : Bytes) trivial
    cases r <;> simp only [CTy.tree, CTy.read] at this <;> first | rfl | cases this
  | .string, _, _, r, _, h => by
    have := h (⟨[], rfl⟩ : Utf8) (show ¬ [0xEF, 0xBB, 0xBF] <+: ([] : Bytes) by simp)
    cases r <;> simp only [CTy.tree, CTy.read] at this <;> first | rfl | cases this
  | .units, _, _, r, _, h => by
    have := h (0 : UInt64) (show (0 : UInt64).toNat < 2 ^ 32 by decide)
    cases r <;> simp only [CTy.tree, CTy.read] at this <;> first | rfl | cases this
  | .scalars s, _, _, r, _, h => by
    have := h ([] : List s.Val) trivial
    cases r <;> simp only [CTy.tree, CTy.read] at this <;> try cases this
    rename_i s' _
    by_cases e : s = s'
    · subst e; rfl
    · rw [dif_neg e] at this; cases this
  | .array c, hw, hp, r, hr, h => by
    simp only [CTy.WF] at hw
    simp only [CTy.Productive] at hp
    have h0 := h ([] : List (c.Msg .out)) trivial
    cases r <;> simp only [CTy.tree, CTy.read] at h0 <;> try cases h0
    rename_i c'
    simp only [CTy.WF] at hr
    refine CTy.Readable.necessary c hw hp c' hr ?_
    intro m hm
    have := h ([m] : List (c.Msg .out)) ⟨hm, trivial⟩
    simp only [CTy.tree, CTy.read, List.map_cons, List.map_nil] at this
    obtain ⟨vs, hvs⟩ := Option.isSome_iff_exists.mp this
    exact mapM_some_mem hvs _ (List.mem_singleton_self _)
  | .struct fs, hw, hp, r, hr, h => by
    simp only [CTy.WF] at hw
    simp only [CTy.Productive] at hp
    obtain ⟨m0, hm0, hs0⟩ := Fields.Productive.default fs hp
    have h0 := h m0 hs0
    cases r <;> simp only [CTy.tree, CTy.read] at h0 h <;> try cases h0
    · rename_i gs
      simp only [CTy.WF] at hr
      refine ⟨Fields.ReadableShared.necessary fs hw.1 hw.2 hp gs hr.2 ?_, ?_⟩
      · intro i r t r' t' h1 h2 v hv
        obtain ⟨m, hm, hm'⟩ := fs.struct_with hp i r t h1 v hv
        exact gs.readStruct_mem _ (h m hm') _ hm r' t' h2
      · intro i hi
        by_cases hex : ∃ p ∈ fs.treeStruct m0, p.1 = i
        · obtain ⟨p, hp, rfl⟩ := hex
          exact (hm0 p hp).resolve_right (fun g => g hw.1)
        · rw [gs.readStruct_missing _ i hi (fun p hp e => hex ⟨p, hp, e⟩)] at h0
          cases h0
    · rename_i gs
      simp only [CTy.WF] at hr
      exact Fields.ReadableUntil.necessary fs hw.2 hp gs hr.2 h
  | .choice fs, hw, hp, r, hr, h => by
    simp only [CTy.WF] at hw
    have hp' := hp
    simp only [CTy.Productive] at hp
    obtain ⟨m0, hm0⟩ := CTy.Productive.safe _ hp'
    have h0 := h m0 hm0
    cases r <;> simp only [CTy.tree, CTy.read] at h0 h <;> try cases h0
    · rename_i gs
      simp only [CTy.WF] at hr
      refine ⟨Fields.ReadableShared.necessary fs hw.1 hw.2 hp.2 gs hr.2 ?_, ?_⟩
      · intro i r t r' t' h1 h2 v hv
        obtain ⟨m, l, hm, hl⟩ := fs.chain_with hp' i r t h1 v hv
        exact gs.readStruct_mem _ (h m (by rw [hm]; exact ⟨hv, hl⟩)) (i, t.tree v) (by rw [hm]; simp) r' t' h2
      · intro i hi j hj
        obtain ⟨m, tr, hm, htr⟩ := fs.chain_single hp.2 j hj
        have := h m (by rw [hm]; exact ⟨htr, trivial⟩)
        rw [hm] at this
        by_cases e : j = i
        · exact e
        · rw [gs.readStruct_missing _ i hi (by simpa using e)] at this
          cases this
    · rename_i gs
      simp only [CTy.WF] at hr
      refine ⟨Fields.ReadableShared.necessary fs hw.1 hw.2 hp.2 gs hr.2 ?_, ?_⟩
      · intro i r t r' t' h1 h2 v hv
        obtain ⟨m, l, hm, hl⟩ := fs.chain_with hp' i r t h1 v hv
        have := h m (by rw [hm]; exact ⟨hv, hl⟩)
        rw [hm] at this
        exact ((gs.readChain_head _ _ _ r' t' h2).mp this).1
      · intro i hi
        obtain ⟨m, tr, hm, htr⟩ := fs.chain_single hp.2 i hi
        have := h m (by rw [hm]; exact ⟨htr, trivial⟩)
        rw [hm] at this
        by_cases hg : gs.Has i (· ≠ .optional)
        · exact hg
        · rw [gs.readChain_missing _ (by simpa using hg)] at this
          cases this

theorem Ty.Readable.necessary : (w : Ty) → w.WF → w.Productive → (r : Ty) → r.WF →
    (∀ m : w.Msg .out, (w.tree m).JsSafe → (r.read (w.tree m)).isSome) → w.Readable r
  | .unit, _, _, r, _, h => by
    have := h () trivial
    cases r <;> simp only [Ty.tree, Ty.read] at this
    · rfl
    · cases this
    · rename_i c _; cases c <;> simp only [CTy.read] at this <;> cases this
  | .scalar s, _, _, r, _, h => by
    have := h s.default trivial
    cases r <;> simp only [Ty.tree, Ty.read] at this
    · cases this
    · rename_i s' _
      by_cases e : s = s'
      · subst e; rfl
      · rw [Scalar.cast, dif_neg e] at this; cases this
    · rename_i c _; cases c <;> simp only [CTy.read] at this <;> cases this
  | .comp c, hw, hp, r, hr, h => by
    simp only [Ty.WF] at hw
    simp only [Ty.Productive] at hp
    obtain ⟨m0, hm0⟩ := CTy.Productive.safe _ hp
    cases r with
    | comp c' =>
      simp only [Ty.WF] at hr
      exact CTy.Readable.necessary c hw hp c' hr h
    | unit =>
      have := h m0 hm0
      cases c <;> simp only [Ty.tree, CTy.tree, Ty.read] at this <;> cases this
    | scalar s =>
      have := h m0 hm0
      cases c <;> simp only [Ty.tree, CTy.tree, Ty.read] at this <;> cases this

theorem Fields.ReadableShared.necessary : (fs : Fields) → fs.indices.Nodup → fs.WF → fs.Productive → (gs : Fields) → gs.WF →
    fs.SharedOk gs → fs.ReadableShared gs
  | .nil, _, _, _, _, _, _ => trivial
  | .cons i r t rest, hn, hw, hp, gs, hg, h => by
    simp only [Fields.indices, List.nodup_cons] at hn
    simp only [Fields.WF] at hw
    simp only [Fields.Productive] at hp
    refine ⟨?_, Fields.ReadableShared.necessary rest hn.2 hw.2.2 hp.2 gs hg ?_⟩
    · intro r' t' hl
      exact Ty.Readable.necessary t hw.2.1 hp.1 t' (hg.lookup hl)
        (fun v => h i r t r' t' (Fields.lookup_cons_self _ _ _ _) hl v)
    · intro j r1 t1 r' t' h1 h2 v
      exact h j r1 t1 r' t' (by rw [Fields.lookup_cons_of_mem hn.1 (Fields.lookup_mem h1)]; exact h1) h2 v

theorem Fields.ReadableUntil.necessary : (fs : Fields) → fs.WF → fs.Productive → (gs : Fields) → gs.WF →
    (∀ m : fs.Struct .out, Tree.JsSafeFields (fs.treeStruct m) → (readChain gs.readVariant (fs.treeStruct m)).isSome) → fs.ReadableUntil gs
  | .nil, _, _, gs, _, h => by
    have := h () trivial
    simp only [Fields.treeStruct, readChain] at this
    cases this
  | .cons i r t rest, hw, hp, gs, hg, h => by
    simp only [Fields.WF] at hw
    simp only [Fields.Productive] at hp
    obtain ⟨v0, hv0⟩ := Ty.Productive.safe t hp.1
    obtain ⟨m0, -, hm0⟩ := Fields.Productive.default rest hp.2
    have full : ∀ (v : t.Msg .out) (m : rest.Struct .out), (t.tree v).JsSafe → Tree.JsSafeFields (rest.treeStruct m) → (readChain gs.readVariant ((i, t.tree v) :: rest.treeStruct m)).isSome := by
      intro v m hv hm
      have := h (Slot.full v _, m) (by simp only [Fields.treeStruct, Slot.full_get?]; exact ⟨hv, hm⟩)
      simp only [Fields.treeStruct] at this
      rw [Slot.full_get?] at this
      exact this
    rw [Fields.ReadableUntil]
    cases hl : gs.lookup i with
    | none =>
      refine Fields.ReadableUntil.necessary rest hw.2.2 hp.2 gs hg ?_
      intro m hm
      have := full v0 m hv0 hm
      rwa [gs.readChain_skip _ _ _ hl] at this
    | some x =>
      obtain ⟨r', t'⟩ := x
      dsimp only
      refine ⟨Ty.Readable.necessary t hw.2.1 hp.1 t' (hg.lookup hl) (fun v hv => ?_), ?_⟩
      · have := full v m0 hv hm0
        rw [gs.readChain_head _ _ _ r' t' hl] at this
        exact this.1
      · by_cases hr' : r' = .optional
        · right
          refine Fields.ReadableUntil.necessary rest hw.2.2 hp.2 gs hg ?_
          intro m hm
          have := full v0 m hv0 hm
          rw [gs.readChain_head _ _ _ r' t' hl] at this
          exact this.2.resolve_left (fun g => g hr')
        · by_cases hr : r = .optional
          · right
            subst hr
            refine Fields.ReadableUntil.necessary rest hw.2.2 hp.2 gs hg ?_
            intro m hm
            exact h ((none : Option (t.Msg .out)), m) hm
          · exact .inl ⟨hr, hr'⟩
end

mutual
/-- `Readable` is sufficient. -/
theorem CTy.Readable.read : (w : CTy) → w.WF → (r : CTy) → r.WF → w.Readable r →
    (m : w.Msg .out) → (r.read (w.tree m)).isSome
  | .bytes, _, r, _, h, m => by simp only [CTy.Readable] at h; subst h; rfl
  | .string, _, r, _, h, m => by simp only [CTy.Readable] at h; subst h; rfl
  | .units, _, r, _, h, m => by simp only [CTy.Readable] at h; subst h; rfl
  | .scalars s, _, r, _, h, m => by
    simp only [CTy.Readable] at h; subst h; simp only [CTy.tree, CTy.read, dif_pos]; rfl
  | .array c, hw, r, hr, h, m => by
    cases r <;> simp only [CTy.Readable] at h
    rename_i c'
    simp only [CTy.WF] at hw hr
    simp only [CTy.tree, CTy.read]
    have : ∀ t ∈ List.map c.tree m, (c'.read t).isSome := by
      intro t ht
      obtain ⟨x, _, rfl⟩ := List.mem_map.1 ht
      exact CTy.Readable.read c hw c' hr h x
    obtain ⟨vs, hvs, _⟩ := mapM_isSome this
    exact Option.isSome_iff_exists.2 ⟨vs, hvs⟩
  | .struct fs, hw, r, hr, h, m => by
    simp only [CTy.WF] at hw
    cases r <;> simp only [CTy.Readable] at h <;> rename_i gs <;> simp only [CTy.WF] at hr <;>
      simp only [CTy.tree, CTy.read]
    · refine Fields.readStruct_isSome gs hr.1 _
        (Fields.ReadableShared.read_struct fs hw.2 gs hr.2 h.1 m) ?_
      intro i hi
      exact Fields.treeStruct_has fs m i (h.2 i hi)
    · exact Fields.ReadableUntil.read fs hw.2 gs hr.2 h m
  | .choice fs, hw, r, hr, h, m => by
    simp only [CTy.WF] at hw
    have hc : ∀ gs : Fields, gs.WF → fs.ReadableShared gs →
        ∀ p ∈ Chain.toList fs.treeSel fs.treeSel m,
        ∀ r' t', gs.lookup p.1 = some (r', t') → (t'.read p.2).isSome := fun gs hg hs =>
      chain_mem_toList _ _ _ (Fields.ReadableShared.read_sel fs hw.2 gs hg hs)
        (Fields.ReadableShared.read_sel fs hw.2 gs hg hs) m
    obtain ⟨p, hp, hreq⟩ := Fields.chain_has fs hw.1 m
    cases r <;> simp only [CTy.Readable] at h <;> rename_i gs <;> simp only [CTy.WF] at hr <;>
      simp only [CTy.tree, CTy.read]
    · refine Fields.readStruct_isSome gs hr.1 _ (hc gs hr.2 h.1) ?_
      intro i hi
      exact ⟨p, hp, h.2 i hi _ hreq⟩
    · exact Fields.readChain_isSome gs _ (hc gs hr.2 h.1) ⟨p, hp, h.2 _ hreq⟩

theorem Ty.Readable.read : (w : Ty) → w.WF → (r : Ty) → r.WF → w.Readable r →
    (m : w.Msg .out) → (r.read (w.tree m)).isSome
  | .unit, _, r, _, h, m => by simp only [Ty.Readable] at h; subst h; rfl
  | .scalar s, _, r, _, h, m => by
    simp only [Ty.Readable] at h; subst h
    simp only [Ty.tree, Ty.read, Scalar.cast, dif_pos]; rfl
  | .comp c, hw, r, hr, h, m => by
    cases r <;> simp only [Ty.Readable] at h
    simp only [Ty.WF] at hw hr
    simp only [Ty.tree, Ty.read]
    exact CTy.Readable.read c hw _ hr h m

theorem Fields.ReadableShared.read_struct : (fs : Fields) → fs.WF → (gs : Fields) → gs.WF →
    fs.ReadableShared gs → (m : fs.Struct .out) → ∀ p ∈ fs.treeStruct m,
    ∀ r' t', gs.lookup p.1 = some (r', t') → (t'.read p.2).isSome
  | .nil, _, _, _, _, _, p, hp => by simp [Fields.treeStruct] at hp
  | .cons i r t rest, hw, gs, hg, h, (slot, m), p, hp => by
    simp only [Fields.WF] at hw
    simp only [Fields.ReadableShared] at h
    simp only [Fields.treeStruct, List.mem_append] at hp
    rcases hp with hp | hp
    · split at hp
      · cases hp
      · rename_i v _
        simp only [List.mem_singleton] at hp
        subst hp
        intro r' t' hl
        exact Ty.Readable.read t hw.2.1 t' (hg.lookup hl) (h.1 r' t' hl) v
    · exact Fields.ReadableShared.read_struct rest hw.2.2 gs hg h.2 m p hp

theorem Fields.ReadableShared.read_sel {fb : Bool} : (fs : Fields) → fs.WF → (gs : Fields) → gs.WF →
    fs.ReadableShared gs → (p : fs.Sel .out fb) →
    ∀ r' t', gs.lookup (fs.treeSel p).1 = some (r', t') → (t'.read (fs.treeSel p).2).isSome
  | .nil, _, _, _, _, e => e.elim
  | .cons i r t rest, hw, gs, hg, h, .inl p => by
    simp only [Fields.WF] at hw
    simp only [Fields.ReadableShared] at h
    simp only [Fields.treeSel]
    intro r' t' hl
    exact Ty.Readable.read t hw.2.1 t' (hg.lookup hl) (h.1 r' t' hl) p.val
  | .cons i r t rest, hw, gs, hg, h, .inr p => by
    simp only [Fields.WF] at hw
    simp only [Fields.ReadableShared] at h
    simp only [Fields.treeSel]
    exact Fields.ReadableShared.read_sel rest hw.2.2 gs hg h.2 p

theorem Fields.ReadableUntil.read : (fs : Fields) → fs.WF → (gs : Fields) → gs.WF → fs.ReadableUntil gs →
    (m : fs.Struct .out) → (readChain gs.readVariant (fs.treeStruct m)).isSome
  | .nil, _, _, _, h, _ => h.elim
  | .cons i r t rest, hw, gs, hg, h, (slot, m) => by
    simp only [Fields.WF] at hw
    simp only [Fields.treeStruct]
    rw [Fields.ReadableUntil] at h
    have ih := Fields.ReadableUntil.read rest hw.2.2 gs hg
    cases hs : Slot.get? slot with
    | none =>
      dsimp only
      rw [List.nil_append]
      refine ih ?_ m
      have ho : r = .optional := by
        cases r
        · cases hs
        · rfl
        · cases hs
      cases hl : gs.lookup i with
      | none => rw [hl] at h; exact h
      | some x =>
        rw [hl] at h
        exact h.2.resolve_left (fun g => g.1 ho)
    | some v =>
      dsimp only
      rw [List.singleton_append]
      cases hl : gs.lookup i with
      | none =>
        rw [hl] at h
        rw [gs.readChain_skip _ _ _ hl]
        exact ih h m
      | some x =>
        obtain ⟨r', t'⟩ := x
        rw [hl] at h
        dsimp only at h
        rw [gs.readChain_head _ _ _ r' t' hl]
        refine ⟨Ty.Readable.read t hw.2.1 t' (hg.lookup hl) h.1 v, ?_⟩
        rcases h.2 with g | g
        · exact .inl g.2
        · exact .inr (ih g m)
end

theorem Fields.ReadableUntil.of_shared : (fs gs : Fields) → fs.indices.Nodup → fs.ReadableShared gs →
    (∃ i, fs.Has i (· ≠ .optional) ∧ gs.Has i (· ≠ .optional)) → fs.ReadableUntil gs
  | .nil, _, _, _, ⟨i, ⟨_, _, h, _⟩, _⟩ => by simp [Fields.lookup] at h
  | .cons j r t rest, gs, hn, h, ⟨i, ⟨r1, t1, h1, h2⟩, ⟨r2, t2, h3, h4⟩⟩ => by
    simp only [Fields.indices, List.nodup_cons] at hn
    simp only [Fields.ReadableShared] at h
    have ih := Fields.ReadableUntil.of_shared rest gs hn.2 h.2
    rw [Fields.lookup] at h1
    rw [Fields.ReadableUntil]
    split at h1
    · rename_i e
      cases h1
      subst e
      rw [h3]
      exact ⟨h.1 _ _ h3, .inl ⟨h2, h4⟩⟩
    · have := ih ⟨i, ⟨r1, t1, h1, h2⟩, ⟨r2, t2, h3, h4⟩⟩
      cases hl : gs.lookup j with
      | none => exact this
      | some x => exact ⟨h.1 _ _ hl, .inr this⟩

mutual
theorem CTy.CanRead.readable : (w : CTy) → w.WF → (r : CTy) → w.CanRead r → w.Readable r
  | .bytes, _, r, h => by simpa only [CTy.CanRead, CTy.Readable] using h
  | .string, _, r, h => by simpa only [CTy.CanRead, CTy.Readable] using h
  | .units, _, r, h => by simpa only [CTy.CanRead, CTy.Readable] using h
  | .scalars _, _, r, h => by simpa only [CTy.CanRead, CTy.Readable] using h
  | .array c, hw, r, h => by
    simp only [CTy.WF] at hw
    cases r <;> simp only [CTy.CanRead] at h
    exact CTy.CanRead.readable c hw _ h
  | .struct fs, hw, r, h => by
    simp only [CTy.WF] at hw
    cases r <;> simp only [CTy.CanRead] at h
    · exact ⟨Fields.CanReadShared.readable fs hw.2 _ h.1, h.2⟩
    · exact Fields.ReadableUntil.of_shared fs _ hw.1 (Fields.CanReadShared.readable fs hw.2 _ h.1) h.2
  | .choice fs, hw, r, h => by
    simp only [CTy.WF] at hw
    cases r <;> simp only [CTy.CanRead] at h
    · exact ⟨Fields.CanReadShared.readable fs hw.2 _ h.1, h.2⟩
    · exact ⟨Fields.CanReadShared.readable fs hw.2 _ h.1, h.2⟩

theorem Ty.CanRead.readable : (w : Ty) → w.WF → (r : Ty) → w.CanRead r → w.Readable r
  | .unit, _, r, h => by simpa only [Ty.CanRead, Ty.Readable] using h
  | .scalar _, _, r, h => by simpa only [Ty.CanRead, Ty.Readable] using h
  | .comp c, hw, r, h => by
    simp only [Ty.WF] at hw
    cases r <;> simp only [Ty.CanRead] at h
    exact CTy.CanRead.readable c hw _ h

theorem Fields.CanReadShared.readable : (fs : Fields) → fs.WF → (gs : Fields) → fs.CanReadShared gs → fs.ReadableShared gs
  | .nil, _, _, _ => trivial
  | .cons i r t rest, hw, gs, h => by
    simp only [Fields.WF] at hw
    simp only [Fields.CanReadShared] at h
    exact ⟨fun r' t' hl => Ty.CanRead.readable t hw.2.1 t' (h.1 r' t' hl), Fields.CanReadShared.readable rest hw.2.2 gs h.2⟩
end

/-! ### Mutual readability is the documented relation -/

theorem Fields.ReadableShared.at : {fs gs : Fields} → fs.ReadableShared gs → ∀ {i r t r' t'}, fs.lookup i = some (r, t) →
    gs.lookup i = some (r', t') → Ty.Readable t t'
  | .nil, _, _, _, _, _, _, _, h, _ => by simp [Fields.lookup] at h
  | .cons j r t rest, gs, hs, i, r1, t1, r', t', h, hl => by
    simp only [Fields.ReadableShared] at hs
    rw [Fields.lookup] at h
    split at h
    · rename_i e
      subst e
      cases h
      exact hs.1 r' t' hl
    · exact Fields.ReadableShared.at hs.2 h hl

/-- The conditions on rules which follow from mutual readability. -/
theorem Fields.rules_of_struct {fs gs : Fields}
    (h1 : ∀ i, gs.Has i (· = .required) → fs.Has i (· ≠ .optional)) (h2 : ∀ i, fs.Has i (· = .required) → gs.Has i (· ≠ .optional)) :
    (∀ i r t, fs.lookup i = some (r, t) → match gs.lookup i with
      | none => r ≠ .required
      | some (r', _) => r.Compat r') ∧
    ∀ i r t, gs.lookup i = some (r, t) → fs.lookup i = none → r ≠ .required := by
  constructor
  · intro i r t hl
    cases hg : gs.lookup i with
    | none =>
      rintro rfl
      obtain ⟨_, _, h, _⟩ := h2 i ⟨_, t, hl, rfl⟩
      rw [hg] at h; cases h
    | some x =>
      obtain ⟨r', t'⟩ := x
      dsimp only
      have a1 : r' = .required → r ≠ .optional := by
        intro e
        obtain ⟨_, _, h, h'⟩ := h1 i ⟨_, t', hg, e⟩
        rw [hl] at h; cases h; exact h'
      have a2 : r = .required → r' ≠ .optional := by
        intro e
        obtain ⟨_, _, h, h'⟩ := h2 i ⟨_, t, hl, e⟩
        rw [hg] at h; cases h; exact h'
      cases r <;> cases r' <;> simp_all [Rule.Compat]
  · rintro i r t hg hf rfl
    obtain ⟨_, _, h, _⟩ := h1 i ⟨_, t, hg, rfl⟩
    rw [hf] at h; cases h

mutual
theorem CTy.Readable.compat : (a : CTy) → a.WF → (b : CTy) → b.WF → a.SameKind b → a.Readable b → b.Readable a → a.Compat b
  | .bytes, _, b, _, _, h, _ => by simpa only [CTy.Compat, CTy.Readable] using h
  | .string, _, b, _, _, h, _ => by simpa only [CTy.Compat, CTy.Readable] using h
  | .units, _, b, _, _, h, _ => by simpa only [CTy.Compat, CTy.Readable] using h
  | .scalars _, _, b, _, _, h, _ => by simpa only [CTy.Compat, CTy.Readable] using h
  | .array c, ha, b, hb, hk, h, h' => by
    cases b <;> simp only [CTy.SameKind] at hk
    simp only [CTy.WF] at ha hb
    simp only [CTy.Readable] at h h'
    exact CTy.Readable.compat c ha _ hb hk h h'
  | .struct fs, ha, b, hb, hk, h, h' => by
    cases b <;> simp only [CTy.SameKind] at hk
    rename_i gs
    simp only [CTy.WF] at ha hb
    simp only [CTy.Readable] at h h'
    have hr := Fields.rules_of_struct h.2 h'.2
    exact ⟨Fields.Readable.compatShared fs ha.1 ha.2 gs hb.2 hk h.1 (fun i r t r' t' h1 h2 => h'.1.at h2 h1) hr.1,
      (Fields.newNotRequired_iff hb.1).mpr hr.2⟩
  | .choice fs, ha, b, hb, hk, h, h' => by
    cases b <;> simp only [CTy.SameKind] at hk
    rename_i gs
    simp only [CTy.WF] at ha hb
    simp only [CTy.Readable] at h h'
    have hr := Fields.rules_of_struct h'.2 h.2
    exact ⟨Fields.Readable.compatShared fs ha.1 ha.2 gs hb.2 hk h.1 (fun i r t r' t' h1 h2 => h'.1.at h2 h1) hr.1,
      (Fields.newNotRequired_iff hb.1).mpr hr.2⟩

theorem Ty.Readable.compat : (a : Ty) → a.WF → (b : Ty) → b.WF → a.SameKind b → a.Readable b → b.Readable a → a.Compat b
  | .unit, _, b, _, _, h, _ => by simpa only [Ty.Compat, Ty.Readable] using h
  | .scalar _, _, b, _, _, h, _ => by simpa only [Ty.Compat, Ty.Readable] using h
  | .comp c, ha, b, hb, hk, h, h' => by
    cases b <;> simp only [Ty.SameKind] at hk
    simp only [Ty.WF] at ha hb
    simp only [Ty.Readable] at h h'
    exact CTy.Readable.compat c ha _ hb hk h h'

theorem Fields.Readable.compatShared : (fs : Fields) → fs.indices.Nodup → fs.WF → (gs : Fields) → gs.WF → fs.SameKind gs →
    fs.ReadableShared gs →
    (∀ i r t r' t', fs.lookup i = some (r, t) → gs.lookup i = some (r', t') → Ty.Readable t' t) →
    (∀ i r t, fs.lookup i = some (r, t) → match gs.lookup i with
      | none => r ≠ .required
      | some (r', _) => r.Compat r') → fs.CompatShared gs
  | .nil, _, _, _, _, _, _, _, _ => trivial
  | .cons i r t rest, hn, hw, gs, hg, hk, h1, h2, h3 => by
    simp only [Fields.indices, List.nodup_cons] at hn
    simp only [Fields.WF] at hw
    simp only [Fields.SameKind] at hk
    simp only [Fields.ReadableShared] at h1
    have up' : ∀ j r' t', rest.lookup j = some (r', t') → (Fields.cons i r t rest).lookup j = some (r', t') := fun j r' t' h => by
      rw [Fields.lookup_cons_of_mem hn.1 (Fields.lookup_mem h)]; exact h
    refine ⟨?_, Fields.Readable.compatShared rest hn.2 hw.2.2 gs hg hk.2 h1.2
      (fun j r1 t1 r' t' e e' => h2 j r1 t1 r' t' (up' j r1 t1 e) e') (fun j r1 t1 e => h3 j r1 t1 (up' j r1 t1 e))⟩
    have h3 := h3 i r t (Fields.lookup_cons_self _ _ _ _)
    cases hl : gs.lookup i with
    | none => rw [hl] at h3; exact h3
    | some x =>
      obtain ⟨r', t'⟩ := x
      rw [hl] at h3
      exact ⟨h3, Ty.Readable.compat t hw.2.1 t' (hg.lookup hl) (hk.1 r' t' hl) (h1.1 r' t' hl)
        (h2 i r t r' t' (Fields.lookup_cons_self _ _ _ _) hl)⟩
end

mutual
theorem CTy.SameKind.shape : (a b : CTy) → a.SameKind b → a.Shape b
  | .bytes, r, h => by simpa only [CTy.SameKind, CTy.Shape] using h
  | .string, r, h => by simpa only [CTy.SameKind, CTy.Shape] using h
  | .units, r, h => by simpa only [CTy.SameKind, CTy.Shape] using h
  | .scalars _, r, h => by simpa only [CTy.SameKind, CTy.Shape] using h
  | .array c, r, h => by
    cases r <;> simp only [CTy.SameKind] at h
    exact CTy.SameKind.shape c _ h
  | .struct fs, r, h => by
    cases r <;> simp only [CTy.SameKind] at h
    exact Fields.SameKind.shape fs _ h
  | .choice fs, r, h => by
    cases r <;> simp only [CTy.SameKind] at h
    exact Fields.SameKind.shape fs _ h

theorem Ty.SameKind.shape : (a b : Ty) → a.SameKind b → a.Shape b
  | .unit, r, h => by simpa only [Ty.SameKind, Ty.Shape] using h
  | .scalar _, r, h => by simpa only [Ty.SameKind, Ty.Shape] using h
  | .comp c, r, h => by
    cases r <;> simp only [Ty.SameKind] at h
    exact CTy.SameKind.shape c _ h

theorem Fields.SameKind.shape : (fs gs : Fields) → fs.SameKind gs → fs.Shape gs
  | .nil, _, _ => trivial
  | .cons i r t rest, gs, h => by
    simp only [Fields.SameKind] at h
    exact ⟨fun r' t' hl => Ty.SameKind.shape t t' (h.1 r' t' hl), Fields.SameKind.shape rest gs h.2⟩
end

theorem Fields.SameKind.at : {fs gs : Fields} → fs.SameKind gs → ∀ {i r t r' t'}, fs.lookup i = some (r, t) →
    gs.lookup i = some (r', t') → Ty.SameKind t t'
  | .nil, _, _, _, _, _, _, _, h, _ => by simp [Fields.lookup] at h
  | .cons j r t rest, gs, hs, i, r1, t1, r', t', h, hl => by
    simp only [Fields.SameKind] at hs
    rw [Fields.lookup] at h
    split at h
    · rename_i e
      subst e
      cases h
      exact hs.1 r' t' hl
    · exact Fields.SameKind.at hs.2 h hl

mutual
theorem CTy.SameKind.symm : (b : CTy) → b.WF → (a : CTy) → a.WF → a.SameKind b → b.SameKind a
  | .bytes, _, a, _, h => by cases a <;> simp_all [CTy.SameKind]
  | .string, _, a, _, h => by cases a <;> simp_all [CTy.SameKind]
  | .units, _, a, _, h => by cases a <;> simp_all [CTy.SameKind]
  | .scalars _, _, a, _, h => by cases a <;> simp_all [CTy.SameKind]
  | .array c, hb, a, ha, h => by
    cases a <;> simp only [CTy.SameKind] at h <;> try cases h
    simp only [CTy.WF] at ha hb
    exact CTy.SameKind.symm c hb _ ha h
  | .struct gs, hb, a, ha, h => by
    cases a <;> simp only [CTy.SameKind] at h <;> try cases h
    simp only [CTy.WF] at ha hb
    exact Fields.SameKind.symm gs hb.1 hb.2 _ ha.2 (fun i r t r' t' h1 h2 => h.at h2 h1)
  | .choice gs, hb, a, ha, h => by
    cases a <;> simp only [CTy.SameKind] at h <;> try cases h
    simp only [CTy.WF] at ha hb
    exact Fields.SameKind.symm gs hb.1 hb.2 _ ha.2 (fun i r t r' t' h1 h2 => h.at h2 h1)

theorem Ty.SameKind.symm : (b : Ty) → b.WF → (a : Ty) → a.WF → a.SameKind b → b.SameKind a
  | .unit, _, a, _, h => by cases a <;> simp_all [Ty.SameKind]
  | .scalar _, _, a, _, h => by cases a <;> simp_all [Ty.SameKind]
  | .comp c, hb, a, ha, h => by
    cases a <;> simp only [Ty.SameKind] at h <;> try cases h
    simp only [Ty.WF] at ha hb
    exact CTy.SameKind.symm c hb _ ha h

theorem Fields.SameKind.symm : (gs : Fields) → gs.indices.Nodup → gs.WF → (fs : Fields) → fs.WF →
    (∀ i r t r' t', gs.lookup i = some (r, t) → fs.lookup i = some (r', t') → Ty.SameKind t' t) → gs.SameKind fs
  | .nil, _, _, _, _, _ => trivial
  | .cons i r t rest, hn, hb, fs, ha, h => by
    simp only [Fields.indices, List.nodup_cons] at hn
    simp only [Fields.WF] at hb
    refine ⟨fun r' t' hl => Ty.SameKind.symm t hb.2.1 t' (ha.lookup hl) (h i r t r' t' (Fields.lookup_cons_self _ _ _ _) hl),
      Fields.SameKind.symm rest hn.2 hb.2.2 fs ha ?_⟩
    intro j r1 t1 r' t' h1 h2
    exact h j r1 t1 r' t' (by rw [Fields.lookup_cons_of_mem hn.1 (Fields.lookup_mem h1)]; exact h1) h2
end

end Typical
