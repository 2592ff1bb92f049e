import Verif.TsWireLemmas
import Verif.ReadableLemmas

/-!
# Helper: a reader of the same kind meets each field of a struct once
-/

namespace Typical

mutual
theorem CTy.once_sameKind {d : Dir} : (w : CTy) → w.WF → (r : CTy) → r.WF → w.SameKind r →
    (m : w.Msg d) → r.Once (w.tree m)
  | .bytes, _, r, _, h, m => by simp only [CTy.SameKind] at h; subst h; trivial
  | .string, _, r, _, h, m => by simp only [CTy.SameKind] at h; subst h; trivial
  | .units, _, r, _, h, m => by simp only [CTy.SameKind] at h; subst h; trivial
  | .scalars s, _, r, _, h, m => by simp only [CTy.SameKind] at h; subst h; trivial
  | .array c, hw, r, hr, h, m => by
    cases r <;> simp only [CTy.SameKind] at h
    rename_i c'
    simp only [CTy.WF] at hw hr
    simp only [CTy.tree, CTy.Once]
    intro t ht
    obtain ⟨x, _, rfl⟩ := List.mem_map.1 ht
    exact CTy.once_sameKind c hw c' hr h x
  | .struct fs, hw, r, hr, h, m => by
    simp only [CTy.WF] at hw
    have hn := Fields.treeStruct_nodup fs hw.1 m
    have hone := fun i => filter_length_le_one hn i
    cases r <;> simp only [CTy.SameKind] at h
    rename_i gs
    simp only [CTy.WF] at hr
    simp only [CTy.tree, CTy.Once]
    exact ⟨fun i _ => hone i, Fields.onceStruct_sameKind fs hw.2 gs hr.1 hr.2 h m⟩
  | .choice fs, hw, r, hr, h, m => by
    simp only [CTy.WF] at hw
    cases r <;> simp only [CTy.SameKind] at h
    rename_i gs
    simp only [CTy.WF] at hr
    simp only [CTy.tree, CTy.Once]
    exact chain_mem_toList _ _ _
        (fun a => Fields.onceSel_sameKind fs hw.2 gs hr.1 hr.2 h a)
        (fun a => Fields.onceSel_sameKind fs hw.2 gs hr.1 hr.2 h a) m

theorem Ty.once_sameKind {d : Dir} : (w : Ty) → w.WF → (r : Ty) → r.WF → w.SameKind r →
    (m : w.Msg d) → r.Once (w.tree m)
  | .unit, _, r, _, h, m => by simp only [Ty.SameKind] at h; subst h; trivial
  | .scalar s, _, r, _, h, m => by simp only [Ty.SameKind] at h; subst h; trivial
  | .comp c, hw, r, hr, h, m => by
    cases r <;> simp only [Ty.SameKind] at h
    simp only [Ty.WF] at hw hr
    simp only [Ty.tree, Ty.Once]
    exact CTy.once_sameKind c hw _ hr h m

theorem Fields.onceStruct_sameKind {d : Dir} : (fs : Fields) → fs.WF → (gs : Fields) →
    gs.indices.Nodup → gs.WF → fs.SameKind gs → (m : fs.Struct d) →
    ∀ p ∈ fs.treeStruct m, gs.OnceAt p.1 p.2
  | .nil, _, _, _, _, _, _, p, hp => by simp [Fields.treeStruct] at hp
  | .cons i r t rest, hw, gs, hn, hg, h, (slot, m), p, hp => by
    simp only [Fields.WF] at hw
    simp only [Fields.SameKind] at h
    simp only [Fields.treeStruct, List.mem_append] at hp
    rcases hp with hp | hp
    · split at hp
      · cases hp
      · rename_i v _
        simp only [List.mem_singleton] at hp
        subst hp
        rw [Fields.onceAt_iff hn]
        intro r' t' hl
        exact Ty.once_sameKind t hw.2.1 t' (hg.lookup hl) (h.1 r' t' hl) v
    · exact Fields.onceStruct_sameKind rest hw.2.2 gs hn hg h.2 m p hp

theorem Fields.onceSel_sameKind {d : Dir} {fb : Bool} : (fs : Fields) → fs.WF → (gs : Fields) →
    gs.indices.Nodup → gs.WF → fs.SameKind gs → (m : fs.Sel d fb) →
    gs.OnceAt (fs.treeSel m).1 (fs.treeSel m).2
  | .nil, _, _, _, _, _, e => e.elim
  | .cons i r t rest, hw, gs, hn, hg, h, .inl p => by
    simp only [Fields.WF] at hw
    simp only [Fields.SameKind] at h
    simp only [Fields.treeSel]
    rw [Fields.onceAt_iff hn]
    intro r' t' hl
    exact Ty.once_sameKind t hw.2.1 t' (hg.lookup hl) (h.1 r' t' hl) p.val
  | .cons i r t rest, hw, gs, hn, hg, h, .inr p => by
    simp only [Fields.WF] at hw
    simp only [Fields.SameKind] at h
    simp only [Fields.treeSel]
    exact Fields.onceSel_sameKind rest hw.2.2 gs hn hg h.2 p
end

/-- What a reader of the same kind cannot read is a message which JavaScript can represent. -/
theorem CTy.unreadable {w r : CTy} (hw : w.WF) (hr : r.WF) (hp : w.Productive) (h : ¬ w.Readable r) :
    ∃ m : w.Msg .out, (w.tree m).JsSafe ∧ r.read (w.tree m) = none := by
  apply Classical.byContradiction
  intro hno
  apply h
  refine CTy.Readable.necessary w hw hp r hr (fun m hs => ?_)
  cases hm : r.read (w.tree m) with
  | none => exact absurd ⟨m, hs, hm⟩ hno
  | some v => rfl

end Typical
