import Verif.LoopLemmas
import Verif.Props.RoundTrip

/-!
# Properties C09, C10, C11: reading structs (generated Rust code)

A well-formed struct input is `Tree.wireFields l` for a list `l` of (index, value) pairs whose known members have the
expected shape (`Fits`); see `Verif.Spec.Wire`.
-/

namespace Typical

/-- **C09.** A field which the reader does not know, inserted after any well-formed fields and before any
bytes whatsoever, does not change the outcome of deserialisation. -/
theorem C09_unknown_field_ignored (gs : Fields) (hw : (CTy.struct gs).WF) (lim : Nat)
    (hlim : lim < 2 ^ 64) (before : List (Nat × Tree)) (hf : (CTy.struct gs).Fits (.fields before))
    (hb : 8 * (Tree.wireFields before).length ≤ lim)
    (i : Nat) (hi : i < 2 ^ 62) (hu : i ∉ gs.indices)
    (payload : Bytes) (isInt : Bool) (hp : payload.length < 2 ^ 64)
    (hint : isInt = true → payload.length ≠ 0 → payload.length ≠ 8 → ∃ v, payload = serializeVarint v)
    (after : Bytes) :
    deserialize lim (.struct gs) (Tree.wireFields before ++
      (serializeFieldHeader i payload.length isInt ++ payload ++ after)) =
    deserialize lim (.struct gs) (Tree.wireFields before ++ after) := by
  have hsuf := fun i n s st st' rest h => Fields.step_suffix (lim := lim) gs i n s st st' rest h
  have key := structLoop_prefix (gs.step lim) gs.stepTree
    (serializeFieldHeader i payload.length isInt ++ payload ++ after) after
    (fun st f g hf hg => by
      cases f with
      | zero => omega
      | succ f =>
        have hh : deserializeFieldHeader (serializeFieldHeader i payload.length isInt ++ payload ++ after) =
            some (i, payload.length, payload ++ after) := by
          rw [serializeFieldHeader_eq i _ _ hi hp]
          refine deserializeFieldHeader_wire i isInt payload after hi hp (fun h1 h2 h3 => ?_)
          obtain ⟨v, hv⟩ := hint h1 h2 h3
          exact ⟨v.toNat, v.toNat_lt, by rw [hv, serializeVarint_eq]⟩
        have hl := (deserializeFieldHeader_suffix hh).2
        rw [structLoop, hh]
        simp only [take_left', Fields.step_unknown gs i _ _ _ hu, skip, List.length_append,
          Nat.le_add_right, if_true, drop_left']
        simp only [List.length_append] at hl hf
        exact structLoop_fuel _ hsuf _ _ _ _ (by omega) hg)
    before
    (fun p hp => by simp only [CTy.Fits] at hf; exact (hf p hp).1)
    (fun p hp st => by
      simp only [CTy.Fits] at hf
      refine Fields.step_wire lim hlim gs hw.2 p.1 p.2 (hf p hp).2 ?_ st
      have h1 := length_le_flatMap (fun p : Nat × Tree => Spec.field p.1 p.2.isInteger (p.2.wire true)) hp
      rw [← wireFields_eq] at h1
      have h2 := field_pos p.1 p.2.isInteger (p.2.wire true)
      omega)
    gs.emptySlots
  simp only [deserialize, CTy.deser]
  rw [key _ _ (Nat.lt_succ_self _) (Nat.lt_succ_self _) (by omega)]

/-- Instance: the unknown field 4 (three bytes), before the known field 1, and followed by garbage. -/
example : deserialize 1000 (.struct (.cons 1 .required (.scalar .u64) .nil))
    (Tree.wireFields [(1, .scalar .u64 (5 : UInt64))] ++
      (serializeFieldHeader 4 3 false ++ [1, 2, 3] ++ [0])) =
    deserialize 1000 (.struct (.cons 1 .required (.scalar .u64) .nil))
      (Tree.wireFields [(1, .scalar .u64 (5 : UInt64))] ++ [0]) :=
  C09_unknown_field_ignored _ (by simp [CTy.WF, Fields.WF, Ty.WF, Fields.indices]) 1000 (by decide) _
    (by simp [CTy.Fits, Fields.FitsAt, Ty.Fits]) (by decide) 4 (by decide) (by decide) [1, 2, 3] false
    (by decide) (by simp) [0]

/-- **C09 (messages).** In particular: inserting unknown fields anywhere among the fields of a
serialised message of the reader's own type still gives the reader's view of that message. -/
theorem C09_unknown_field_in_message (gs : Fields) (hw : (CTy.struct gs).WF) (lim : Nat)
    (hlim : lim < 2 ^ 64) (m : gs.Struct .out) (before after : List (Nat × Tree))
    (hm : gs.treeStruct m = before ++ after) (i : Nat) (hi : i < 2 ^ 62) (hu : i ∉ gs.indices)
    (payload : Bytes) (hp : payload.length < 2 ^ 64) (hs : 8 * size (.struct gs) m ≤ lim) :
    deserialize lim (.struct gs) (Tree.wireFields before ++
      (serializeFieldHeader i payload.length false ++ payload ++ Tree.wireFields after)) =
      .ok ((CTy.struct gs).toIn m) := by
  obtain ⟨bs, h1, h2⟩ := C06_round_trip (.struct gs) hw m lim hlim hs
  have hsz : size (.struct gs) m < 2 ^ 64 := by omega
  have hw1 := serialize_wire (.struct gs) hw m hsz
  have hlen := size_wire (.struct gs) hw m hsz
  have hfit := CTy.fits_tree (.struct gs) hw (.struct gs) hw (CTy.shape_refl _ hw) m
  simp only [CTy.tree, hm, Tree.wire, wireFields_append] at hw1 hlen hfit
  have hbs : bs = Tree.wireFields before ++ Tree.wireFields after := by
    rw [h1] at hw1; exact Option.some.inj hw1
  rw [hbs] at h2
  rw [List.length_append] at hlen
  rw [C09_unknown_field_ignored gs hw lim hlim before ?_ (by omega) i hi hu payload false hp (by simp)]
  · exact h2
  · simp only [CTy.Fits, List.mem_append] at hfit ⊢
    exact fun p hp => hfit p (.inl hp)

/-- **C10.** The result of reading a struct only depends on the list of values written for each index, not on how fields
with different indices are interleaved. -/
theorem C10_order_irrelevant (gs : Fields) (hw : (CTy.struct gs).WF) (lim : Nat) (hlim : lim < 2 ^ 64)
    (l l' : List (Nat × Tree)) (hf : (CTy.struct gs).Fits (.fields l))
    (hf' : (CTy.struct gs).Fits (.fields l'))
    (hl : 8 * (Tree.wireFields l).length ≤ lim) (hl' : 8 * (Tree.wireFields l').length ≤ lim)
    (h : ∀ i, l.filter (fun p => p.1 == i) = l'.filter (fun p => p.1 == i))
    (v : (CTy.struct gs).Msg .inn) :
    deserialize lim (.struct gs) (Tree.wireFields l) = .ok v ↔
      deserialize lim (.struct gs) (Tree.wireFields l') = .ok v := by
  have d := deserialize_wire lim hlim (.struct gs) hw (.fields l) hf (by simpa only [Tree.wire] using hl)
  have d' := deserialize_wire lim hlim (.struct gs) hw (.fields l') hf' (by simpa only [Tree.wire] using hl')
  simp only [Tree.wire, CTy.read] at d d'
  rw [← Fields.readStruct_congr gs l l' (fun i _ => h i)] at d'
  cases hr : gs.readStruct l with
  | none =>
    rw [hr] at d d'
    obtain ⟨e, h1, _⟩ := d
    obtain ⟨e', h1', _⟩ := d'
    rw [h1, h1']
    constructor <;> (intro h; cases h)
  | some w =>
    rw [hr] at d d'
    simp only [Agrees] at d d'
    rw [d, d']

/-- **C10 (permutations).** Fields with distinct indices can be permuted. -/
theorem C10_permutation (gs : Fields) (hw : (CTy.struct gs).WF) (lim : Nat) (hlim : lim < 2 ^ 64)
    (m : gs.Struct .out) (l : List (Nat × Tree)) (hl : l.Perm (gs.treeStruct m))
    (hs : 8 * size (.struct gs) m ≤ lim) :
    deserialize lim (.struct gs) (Tree.wireFields l) = .ok ((CTy.struct gs).toIn m) := by
  obtain ⟨bs, h1, h2⟩ := C06_round_trip (.struct gs) hw m lim hlim hs
  have hsz : size (.struct gs) m < 2 ^ 64 := by omega
  have hw1 := serialize_wire (.struct gs) hw m hsz
  have hlen := size_wire (.struct gs) hw m hsz
  have hfit := CTy.fits_tree (.struct gs) hw (.struct gs) hw (CTy.shape_refl _ hw) m
  simp only [CTy.tree, Tree.wire] at hw1 hlen hfit
  rw [h1] at hw1
  cases hw1
  have hlen' : (Tree.wireFields l).length = (Tree.wireFields (gs.treeStruct m)).length := by
    rw [wireFields_eq, wireFields_eq]
    exact (hl.flatMap_right _).length_eq
  have hnd : ((gs.treeStruct m).map Prod.fst).Nodup := Fields.treeStruct_nodup gs hw.1 m
  rw [C10_order_irrelevant gs hw lim hlim l (gs.treeStruct m) ?_ hfit (by omega) (by omega) ?_]
  · exact h2
  · simp only [CTy.Fits] at hfit ⊢
    exact fun p hp => hfit p (hl.mem_iff.1 hp)
  · intro i
    exact perm_filter_eq hl hnd i

/-- **C11.** If deserialisation of any bytes as a struct succeeds, the bytes contain a header with the index
of each required field. -/
theorem C11_required_field_present (gs : Fields) (lim : Nat) (s : Bytes)
    (v : (CTy.struct gs).Msg .inn) (h : deserialize lim (.struct gs) s = .ok v)
    (i : Nat) (hi : gs.Has i (· = .required)) :
    ∃ body n r, body <:+ s ∧ deserializeFieldHeader body = some (i, n, r) := by
  refine Classical.byContradiction fun hc => ?_
  have hno : ∀ body j n r, body <:+ s → deserializeFieldHeader body = some (j, n, r) → j ≠ i := by
    intro body j n r h1 h2 e
    subst e
    exact hc ⟨body, n, r, h1, h2⟩
  simp only [deserialize, CTy.deser] at h
  cases hl : structLoop (gs.step lim) (s.length + 1) s gs.emptySlots with
  | error e => rw [hl] at h; cases h
  | ok st =>
    rw [hl] at h
    have hinv := structLoop_inv (gs.step lim)
      (fun i n s st st' rest h => Fields.step_suffix gs i n s st st' rest h)
      (gs.slotEmpty i) s
      (fun body j n r st st' rest h1 h2 h3 h4 =>
        Fields.step_slotEmpty gs j n _ st st' rest h3 i (hno body j n r h1 h2) h4)
      _ s gs.emptySlots st List.suffix_rfl (Fields.slotEmpty_empty gs i) hl
    simp only [Fields.finish_slotEmpty gs i hi st hinv] at h
    cases h

/-- Instance: an input with the required field 2 deserialises. -/
example : deserialize 1000 (.struct (.cons 2 .required .unit .nil)) (Tree.wireFields [(2, .unit)]) =
    .ok (((), ()) : Unit × Unit) := rfl

/-- **C11 (InvalidData).** Well-formed fields which are all readable, but among which a required field is missing, give
`InvalidData`. -/
theorem C11_missing_required_invalid (gs : Fields) (hw : (CTy.struct gs).WF) (lim : Nat)
    (hlim : lim < 2 ^ 64) (l : List (Nat × Tree)) (hf : (CTy.struct gs).Fits (.fields l))
    (hl : 8 * (Tree.wireFields l).length ≤ lim)
    (hread : ∀ p ∈ l, ∀ r t, gs.lookup p.1 = some (r, t) → (t.read p.2).isSome)
    (i : Nat) (hi : gs.Has i (· = .required)) (hno : ∀ p ∈ l, p.1 ≠ i) :
    deserialize lim (.struct gs) (Tree.wireFields l) = .error .invalid := by
  have hw' := hw
  simp only [CTy.WF] at hw'
  simp only [CTy.Fits] at hf
  have hstep := structLoop_wire (gs.step lim) gs.stepTree l (fun p hp => (hf p hp).1)
    (fun p hp st => by
      refine Fields.step_wire lim hlim gs hw'.2 p.1 p.2 (hf p hp).2 ?_ st
      have h1 := length_le_flatMap (fun p : Nat × Tree => Spec.field p.1 p.2.isInteger (p.2.wire true)) hp
      rw [← wireFields_eq] at h1
      have h2 := field_pos p.1 p.2.isInteger (p.2.wire true)
      omega)
    ((Tree.wireFields l).length + 1) gs.emptySlots (Nat.lt_succ_self _) (by omega)
  have hfold : ∃ st, l.foldlM gs.stepTree gs.emptySlots = some st :=
    foldlM_stepTree_isSome gs l hread gs.emptySlots
  obtain ⟨st, hst⟩ := hfold
  rw [hst] at hstep
  simp only [Agrees] at hstep
  have hfin := Fields.foldlM_finish gs hw'.1 l
  simp only [deserialize, CTy.deser, hstep]
  have hnone := Fields.readStruct_missing gs l i hi hno
  rw [hst] at hfin
  simp only [Option.bind_some] at hfin
  rw [hfin, hnone]

example : deserialize 1000 (.struct (.cons 2 .required .unit .nil))
    (Tree.wireFields [(3, .string ⟨[65], by decide⟩), (1, .unit)]) = .error .invalid :=
  C11_missing_required_invalid _ (by simp [CTy.WF, Fields.WF, Ty.WF, Fields.indices]) 1000 (by decide) _
    (by simp [CTy.Fits, Fields.FitsAt]) (by decide +kernel) (by simp [Fields.lookup])
    2 ⟨_, _, rfl, rfl⟩ (by simp)

end Typical
