import Verif.Io
import Verif.RustEnc

/-!
# Writing to devices

Helper lemmas for `Props/Io.lean`.
-/

namespace Typical

/-- `f` writes the bytes `s`, or a part of them before the device's error. -/
def WSim (f : WriteM) (s : Bytes) : Prop :=
  ∀ w : Writer,
    (∃ events, events <:+ w.events ∧ f w = (.ok (), ⟨w.written ++ s, events⟩)) ∨
    (∃ p events k, p <+: s ∧ p ≠ s ∧ events <:+ w.events ∧
      f w = (.error (.io k), ⟨w.written ++ p, events⟩) ∧
      (k ≠ .interrupted ∧ .fail k ∈ w.events ∨ k = .writeZero ∧ .accept 0 ∈ w.events))

theorem writeAllLoop_sim : (s : Bytes) → (events : List WEvent) → (written : Bytes) →
    (∃ events', events' <:+ events ∧ writeAllLoop s events written = (.ok (), ⟨written ++ s, events'⟩)) ∨
    (∃ p events' k, p <+: s ∧ p ≠ s ∧ events' <:+ events ∧
      writeAllLoop s events written = (.error (.io k), ⟨written ++ p, events'⟩) ∧
      (k ≠ .interrupted ∧ .fail k ∈ events ∨ k = .writeZero ∧ .accept 0 ∈ events))
  | s, [], written => .inl ⟨[], List.suffix_refl _, by simp [writeAllLoop]⟩
  | s, e :: events, written => by
    unfold writeAllLoop
    by_cases hs : s = []
    · subst hs
      simp only [if_pos]
      exact .inl ⟨e :: events, List.suffix_refl _, by rw [List.append_nil]⟩
    · simp only [if_neg hs]
      cases e with
      | accept n =>
        cases n with
        | zero =>
          right
          exact ⟨[], events, .writeZero, List.nil_prefix, Ne.symm hs, List.suffix_cons _ _,
            by simp only [List.append_nil], .inr ⟨rfl, List.mem_cons_self⟩⟩
        | succ n =>
          simp only
          rcases writeAllLoop_sim (s.drop (n + 1)) events (written ++ s.take (n + 1)) with
            ⟨ev, h1, h2⟩ | ⟨p, ev, k, h1, h2, h3, h4, h5⟩
          · left
            refine ⟨ev, h1.trans (List.suffix_cons _ _), ?_⟩
            rw [h2, List.append_assoc, List.take_append_drop]
          · right
            refine ⟨s.take (n + 1) ++ p, ev, k, ?_, ?_, h3.trans (List.suffix_cons _ _), ?_, ?_⟩
            · conv => rhs; rw [← List.take_append_drop (n + 1) s]
              exact (List.prefix_append_right_inj _).mpr h1
            · intro h
              apply h2
              have : s.take (n + 1) ++ p = s.take (n + 1) ++ s.drop (n + 1) := by
                rw [h, List.take_append_drop]
              exact List.append_cancel_left this
            · rw [h4, List.append_assoc]
            · rcases h5 with h | h
              · exact .inl ⟨h.1, List.mem_cons_of_mem _ h.2⟩
              · exact .inr ⟨h.1, List.mem_cons_of_mem _ h.2⟩
      | fail k =>
        by_cases hk : k = .interrupted
        · subst hk
          simp only
          rcases writeAllLoop_sim s events written with ⟨ev, h1, h2⟩ | ⟨p, ev, k, h1, h2, h3, h4, h5⟩
          · exact .inl ⟨ev, h1.trans (List.suffix_cons _ _), h2⟩
          · right
            refine ⟨p, ev, k, h1, h2, h3.trans (List.suffix_cons _ _), h4, ?_⟩
            rcases h5 with h | h
            · exact .inl ⟨h.1, List.mem_cons_of_mem _ h.2⟩
            · exact .inr ⟨h.1, List.mem_cons_of_mem _ h.2⟩
        · right
          refine ⟨[], events, k, List.nil_prefix, Ne.symm hs, List.suffix_cons _ _, ?_,
            .inl ⟨hk, List.mem_cons_self⟩⟩
          rw [List.append_nil]
          cases k <;> first | rfl | exact absurd rfl hk

theorem writeAll_sim (s : Bytes) : WSim (writeAll s) s := fun w => writeAllLoop_sim s w.events w.written

theorem WSim.done : WSim .done [] := fun w =>
  .inl ⟨w.events, List.suffix_refl _, by simp [WriteM.done]⟩

theorem WSim.andThen {f g : WriteM} {s s' : Bytes} (hf : WSim f s) (hg : WSim g s') :
    WSim (f.andThen g) (s ++ s') := by
  intro w
  unfold WriteM.andThen
  rcases hf w with ⟨ev, h1, h2⟩ | ⟨p, ev, k, h1, h2, h3, h4, h5⟩
  · rw [h2]
    simp only
    rcases hg ⟨w.written ++ s, ev⟩ with ⟨ev', h1', h2'⟩ | ⟨p, ev', k, h1', h2', h3', h4', h5'⟩
    · left
      exact ⟨ev', h1'.trans h1, by rw [h2', List.append_assoc]⟩
    · right
      refine ⟨s ++ p, ev', k, (List.prefix_append_right_inj _).mpr h1',
        fun h => h2' (List.append_cancel_left h), h3'.trans h1, by rw [h4', List.append_assoc], ?_⟩
      rcases h5' with h | h
      · exact .inl ⟨h.1, h1.subset h.2⟩
      · exact .inr ⟨h.1, h1.subset h.2⟩
  · rw [h4]
    right
    refine ⟨p, ev, k, h1.trans (List.prefix_append _ _), ?_, h3, rfl, h5⟩
    intro h
    apply h2
    have hl := congrArg List.length h
    rw [List.length_append] at hl
    have hp := h1.length_le
    exact h1.eq_of_length (by omega)

theorem WSim.forEach {α : Type} {f : α → WriteM} {g : α → Bytes} (h : ∀ a, WSim (f a) (g a)) :
    (as : List α) → WSim (WriteM.forEach f as) (as.flatMap g)
  | [] => WSim.done
  | a :: as => by
    rw [List.flatMap_cons]
    exact (h a).andThen (WSim.forEach h as)

theorem serializeFieldHeaderW_sim (i n : Nat) (b : Bool) :
    WSim (serializeFieldHeaderW i n b) (serializeFieldHeader i n b) := by
  match n with
  | 0 => exact writeAll_sim _
  | 8 => exact writeAll_sim _
  | 1 | 2 | 3 | 4 | 5 | 6 | 7 | n + 9 =>
    cases b
    · exact (writeAll_sim _).andThen (writeAll_sim _)
    · exact writeAll_sim _

theorem u64FieldW_sim (v : UInt64) : WSim (u64FieldW v) (u64Field v) := by
  unfold u64FieldW u64Field
  split
  · exact WSim.done
  · split
    · exact writeAll_sim _
    · exact writeAll_sim _

theorem serScalarFieldW_sim : (s : Scalar) → (v : s.Val) → WSim (serScalarFieldW s v) (serScalarField s v)
  | .bool, _ => u64FieldW_sim _
  | .s64, _ => u64FieldW_sim _
  | .u64, _ => u64FieldW_sim _
  | .f64, v => by
    simp only [serScalarFieldW, serScalarField, f64Field, f64FieldW]
    split
    · exact writeAll_sim _
    · exact WSim.done

theorem serScalarElemW_sim : (s : Scalar) → (v : s.Val) → WSim (serScalarElemW s v) (serScalarElem s v)
  | .bool, _ => writeAll_sim _
  | .s64, _ => writeAll_sim _
  | .u64, _ => writeAll_sim _
  | .f64, _ => writeAll_sim _

theorem chainSerW_sim {α β α' β' : Type} (fa : α → Nat × α') (ga : β → Nat × β')
    (fw : α → α' → WriteM) (gw : β → β' → WriteM) (f : α → Bytes) (g : β → Bytes)
    (hf : ∀ a, WSim (fw a (fa a).2) (f a)) (hg : ∀ b, WSim (gw b (ga b).2) (g b)) (m : Chain α β) :
    WSim (CTy.serW.chainSerW fw gw m (CTy.atlas.chainAtlas fa ga m)) (chainBytes f g m) := by
  induction m with
  | last b => exact hg b
  | more a rest ih => exact (hf a).andThen ih

mutual
theorem CTy.serW_sim (isField : Bool) : (c : CTy) → (m : c.Msg .out) →
    WSim (c.serW isField m (c.atlas isField m)) (c.enc isField m)
  | .bytes, m => by simp only [CTy.serW, CTy.enc]; exact writeAll_sim _
  | .string, m => by simp only [CTy.serW, CTy.enc]; exact writeAll_sim _
  | .units, n => by
    simp only [CTy.serW, CTy.enc]
    cases isField
    · exact writeAll_sim _
    · exact u64FieldW_sim n
  | .scalars s, m => by
    simp only [CTy.serW, CTy.enc]
    exact WSim.forEach (serScalarElemW_sim s) m
  | .array c, m => by
    have ih := CTy.serW_sim false c
    simp only [CTy.serW, CTy.enc, CTy.atlas]
    induction m with
    | nil => exact WSim.done
    | cons x m ihm =>
      simp only [List.map_cons, List.zip_cons_cons, WriteM.forEach, List.flatMap_cons]
      rw [(CTy.serWith_atlas false c x).2]
      exact ((writeAll_sim _).andThen (ih x)).andThen ihm
  | .struct fs, m => by
    simp only [CTy.serW, CTy.enc, CTy.atlas]
    exact Fields.structSerW_sim fs m
  | .choice fs, m => by
    simp only [CTy.serW, CTy.enc, CTy.atlas]
    exact chainSerW_sim (Fields.selAtlas fs) (Fields.selAtlas fs) _ _ _ _
      (Fields.selSerW_sim fs) (Fields.selSerW_sim fs) m

theorem Ty.serW_sim : (t : Ty) → (m : t.Msg .out) → WSim (t.serW m (t.atlas m)) (t.enc m)
  | .unit, m => WSim.done
  | .scalar s, v => serScalarFieldW_sim s v
  | .comp c, m => by
    simp only [Ty.serW, Ty.enc, Ty.atlas]
    exact CTy.serW_sim true c m

theorem Fields.structSerW_sim : (fs : Fields) → (m : fs.Struct .out) →
    WSim (fs.structSerW m (fs.structAtlas m).2) (fs.encStruct m)
  | .nil, _ => WSim.done
  | .cons i r t rest, (slot, m) => by
    have ih := Fields.structSerW_sim rest m
    have iht := Ty.serW_sim t
    simp only [Fields.structAtlas, Fields.encStruct, Fields.structSerW, Slot.get?_map]
    cases h : Slot.get? slot with
    | none =>
      simp only
      exact WSim.done.andThen ih
    | some p =>
      simp only [Option.map_some, wireField]
      rw [(Ty.serWith_atlas t p).2]
      exact ((serializeFieldHeaderW_sim _ _ _).andThen (iht p)).andThen ih

theorem Fields.selSerW_sim {fb : Bool} : (fs : Fields) → (p : fs.Sel .out fb) →
    WSim (fs.selSerW p (fs.selAtlas p).2) (fs.encSel p)
  | .nil, e => e.elim
  | .cons i r t rest, .inl p => by
    simp only [Fields.selAtlas, Fields.encSel, Fields.selSerW, wireField]
    rw [(Ty.serWith_atlas t p.val).2]
    exact (serializeFieldHeaderW_sim _ _ _).andThen (Ty.serW_sim t p.val)
  | .cons i r t rest, .inr p => by
    have ih := Fields.selSerW_sim rest p
    simpa only [Fields.selAtlas, Fields.encSel, Fields.selSerW] using ih
end

end Typical
