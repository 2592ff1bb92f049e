import Verif.TsGen.SerProof

/-!
# Helper: the generated statements which serialize payloads of composite types
-/

namespace Typical.TsGen

open Gen (NCTy NTy NFields DeclName FieldName Ev)

section
variable {T : CharTable} {S : Schemas} {P : Prog}

theorem run_set {h : List Obj} {r r' base' len' len off : Nat} {l b : Bytes} (hr : h[r]? = some (.buf b)) (hr' : h[r']? = some (.buf l))
    (ho : off + ((l.drop base').take len').length ≤ len) (env : Env) (sc : Nat → UInt8) (κ : Out → St → Option (Out × St)) :
    run (Method.run .set (.typed r 0 len) [.typed r' base' len', natV off]) ⟨env, h, sc⟩ κ =
      κ (.val .undef) ⟨env, h.set r (.buf (splice b off ((l.drop base').take len'))), sc⟩ := by
  simp only [Method.run]
  rw [run_withBuf, hr', bufK_some]
  exact run_writeView hr ho env sc κ

theorem run_newTyped {h : List Obj} {r : Nat} {b : Bytes} (hr : h[r]? = some (.buf b)) (env : Env) (sc : Nat → UInt8) (κ : Out → St → Option (Out × St)) :
    run (Builtin.construct .uint8Array [.buf r]) ⟨env, h, sc⟩ κ = κ (.val (.typed r 0 b.length)) ⟨env, h, sc⟩ := by
  simp only [Builtin.construct]
  rw [run_withBuf, hr, bufK_some]
  rfl

theorem run_newTypedAt {h : List Obj} {r base len : Nat} {b : Bytes} (hr : h[r]? = some (.buf b)) (hb : base + len ≤ b.length) (env : Env)
    (sc : Nat → UInt8) (κ : Out → St → Option (Out × St)) :
    run (Builtin.construct .uint8Array [.buf r, natV base, natV len]) ⟨env, h, sc⟩ κ = κ (.val (.typed r base len)) ⟨env, h, sc⟩ := by
  simp only [Builtin.construct]
  rw [run_withBuf, hr, bufK_some]
  unfold newView
  rw [run_ite, if_pos (by omega)]
  rfl

theorem serOk_bytes (ns : Namespace) (s : Schema) : SerOk T S P ns s .bytes (.comp .bytes) := by
  intro ns' path isField m v va env h sc H b len w w' hc hr hm ha hH hb e1 e2 hW hs
  obtain ⟨r, rfl, h2⟩ := hm
  change Bytes at m
  have hs : Ts.put m w = some w' := hs
  refine ⟨(Ts.put_inv hs).2, .of fun n => ?_⟩
  obtain ⟨h3, rfl⟩ := put_eq hs
  refine (run_done _ _).symm.trans ?_
  unfold serialization
  have hl := hW.length
  have hm : (List.drop 0 m).take m.length = m := by simp
  have hset := fun env => run_set hW.buf (hH _ _ h2) (base' := 0) (len' := m.length) (len := len) (off := w.off) (by rw [hm, hl]; exact h3) env sc
  rw [hm] at hset
  tsrun [e1, hc.root, run_newTyped (hH _ _ h2), targetBuffer, hW.view, hW.off, hW.assign, Ex.buffer, Ex.byteOffset, Ex.byteLength,
    run_newTypedAt hW.buf (show 0 + len ≤ w.buf.length by omega), hset]

theorem serOk_string (ns : Namespace) (s : Schema) : SerOk T S P ns s .string (.comp .string) := by
  intro ns' path isField m v va env h sc H b len w w' hc hr hm ha hH hb e1 e2 hW hs
  cases hm
  obtain ⟨r, rfl, h2⟩ := ha
  obtain ⟨a, rfl⟩ : ∃ a : Bytes, atlasOf isField (.comp .string) m = a := ⟨_, rfl⟩
  have hs : Ts.put (atlasOf isField (.comp .string) m) w = some w' := hs
  generalize atlasOf isField (.comp .string) m = a at *
  change Bytes at a
  refine ⟨(Ts.put_inv hs).2, .of fun n => ?_⟩
  obtain ⟨h3, rfl⟩ := put_eq hs
  refine (run_done _ _).symm.trans ?_
  unfold serialization
  have hl := hW.length
  have hm : (List.drop 0 a).take a.length = a := by simp
  have hset := fun env => run_set hW.buf (hH _ _ h2) (base' := 0) (len' := a.length) (len := len) (off := w.off) (by rw [hm, hl]; exact h3) env sc
  rw [hm] at hset
  tsrun [e2, hc.root, targetBuffer, hW.view, hW.off, hW.assign, Ex.buffer, Ex.byteOffset, Ex.byteLength,
    run_newTypedAt hW.buf (show 0 + len ≤ w.buf.length by omega), hset]

theorem serOk_units (ns : Namespace) (s : Schema) (r : SourceRange) : SerOk T S P ns s (.array r .unit) (.comp .units) := by
  intro ns' path isField m v va env h sc H b len w w' hc hr hm ha hH hb e1 e2 hW hs
  obtain ⟨r, rfl, h2⟩ := hm
  have hs : Ts.serU64 isField (UInt64.toNat m) w = some w' := hs
  have hev : ∀ {p : Nat → Prop} {q : Prop}, (∀ n, 16 ≤ n → q ∧ p n) → q ∧ Ev p := fun hp => ⟨(hp 16 (Nat.le_refl _)).1, 16, fun n hn => (hp n hn).2⟩
  refine hev fun n hn => ?_
  unfold serialization
  rw [if_neg (by simp [sized]), if_pos rfl]
  refine exec_varintBlock hc hn isField (fun κ => ?_) hW hs
  tsrun [e1, hc.root, Ex.length, run_arr_length (hH _ _ h2), List.length_replicate]

theorem serOk_scalars (ns : Namespace) (s : Schema) (r : SourceRange) (inner : TypeVariant) (c : Scalar)
    (ht : NamedType T S ns s inner (.scalar c)) : SerOk T S P ns s (.array r inner) (.comp (.scalars c)) := by
  intro ns' path isField m v va env h sc H b len w w' hc hr hm ha hH hb e1 e2 hW hs
  obtain ⟨r, rfl, h2⟩ := hm
  change List c.Val at m
  have hs : Ts.serEach (Ts.serScalarElem c) m w = some w' := hs
  have hu : inner ≠ .unit := fun e => by subst e; cases ht
  have hl := fun c' => Loops.count (cond := fun n => Ex.eval (ctx P path n) (.bin .lt (.var .i) (.prop (.var .oldPayload) "length".toList)))
    (body := fun n => forBody (ctx P path n) (stms [.const .payload (.index (TsGen.v .oldPayload) (TsGen.v .i))] ++ serialization T s ns' false inner)) (L := m.length)
    (fun i s => ∃ x, s = ⟨(.i, .let_ (natV i)) :: (.oldPayload, .const (.arr r)) :: update .offset (natV x.off) env, h.set b (.buf x.buf), sc⟩ ∧
      x.buf.length = w.buf.length ∧ Ts.serEach (Ts.serScalarElem c) (m.drop i) x = some w') ?_ ?_ m.length 0 (Nat.zero_add _) c'
  rotate_left
  · rintro i s ⟨x, rfl, hx, hs⟩ hi
    refine .of fun n => (run_done _ _).symm.trans ?_
    tsrun [run_arr_length (hH.set hb (.buf x.buf) _ _ h2), List.length_map]
  · rintro i s ⟨x, rfl, hx, hs⟩ hi
    have hi' : m[i]? = some m[i] := List.getElem?_eq_getElem hi
    rw [List.drop_eq_getElem_cons hi, Ts.serEach, Option.bind_eq_some_iff] at hs
    obtain ⟨y, hy, hs⟩ := hs
    have hn := hW.next hx
    obtain ⟨q1, N, q2⟩ := exec_serScalar ht hc (ns' := ns') (sc := sc) false m[i] (env := (.payload, .const (encScalar c m[i])) :: (.i, .let_ (natV i)) ::
      (.oldPayload, .const (.arr r)) :: update .offset (natV x.off) env) (by tsrun) nofun
      (((hn.enter (x := .oldPayload) nofun nofun _).enter (x := .i) nofun nofun _).enter (x := .payload) nofun nofun _) hy
    refine ⟨_, .undef, ⟨y, rfl, q1.trans hx, hs⟩, N, fun n hn => ?_⟩
    refine (run_done _ _).symm.trans ?_
    unfold forBody
    tsrun [serialization_declared, run_arr_index (hH.set hb (.buf x.buf) _ _ h2) (show (List.map (encScalar c) m)[i]? = some (encScalar c m[i]) by rw [List.getElem?_map, hi']; rfl)]
    refine (run_eq (q2 n hn) _).trans ?_
    tsrun [setCell_setCell, List.set_set]
  obtain ⟨s', ⟨x, rfl, hx, hs'⟩, hl⟩ := hl _ ⟨w, rfl, rfl, hs⟩
  rw [List.drop_length] at hs'
  cases hs'
  refine ⟨hx, hl.ev.mono fun n hn => ?_⟩
  rw [update_self env hW.assign hW.off, set_same hW.buf] at hn
  refine (run_done _ _).symm.trans ?_
  unfold serialization
  rw [if_neg (by rw [ht.sized_scalar]; nofun), if_neg hu]
  tsrun [e1, Ex.length, run_for]
  refine (run_eq hn _).trans ?_
  tsrun

theorem forall₂_both {α β δ : Type} {R : α → β → Prop} {Q : α → δ → Prop} : {m : List α} → {l : List β} → {k : List δ} →
    List.Forall₂ R m l → List.Forall₂ Q m k → {i : Nat} → i < m.length →
    ∃ x y u, l[i]? = some y ∧ k[i]? = some u ∧ R x y ∧ Q x u ∧ m.drop i = x :: m.drop (i + 1)
  | _, _, _, .cons h1 _, .cons h2 _, 0, _ => ⟨_, _, _, rfl, rfl, h1, h2, rfl⟩
  | _, _, _, .cons _ h1, .cons _ h2, i + 1, hi => by
    obtain ⟨x, y, u, e1, e2, e3, e4, e5⟩ := forall₂_both h1 h2 (i := i) (by simpa using hi)
    exact ⟨x, y, u, e1, e2, e3, e4, by simpa using e5⟩

theorem forall₂_unmap {α β γ : Type} {R : γ → β → Prop} {f : α → γ} : {m : List α} → {l : List β} → List.Forall₂ R (m.map f) l →
    List.Forall₂ (fun a b => R (f a) b) m l
  | [], _, .nil => .nil
  | _ :: _, _, .cons h1 h2 => .cons h1 (forall₂_unmap h2)

theorem serEach_zip {α γ : Type} (f : α → γ) (g : α × γ → Ts.W → Option Ts.W) : (m : List α) → (w : Ts.W) →
    Ts.serEach g (m.zip (m.map f)) w = Ts.serEach (fun a => g (a, f a)) m w
  | [], _ => rfl
  | a :: m, w => by
    rw [List.map_cons, List.zip_cons_cons, Ts.serEach, Ts.serEach]
    congr 1
    exact funext fun w => serEach_zip f g m w

theorem serOk_array (ns : Namespace) (s : Schema) (r : SourceRange) (inner : TypeVariant) (c : NCTy)
    (ht : NamedType T S ns s inner (.comp c)) (ih : SerOk T S P ns s inner (.comp c)) :
    SerOk T S P ns s (.array r inner) (.comp (.array c)) := by
  intro ns' path isField m v va env h sc H b len w w' hc hr hm ha hH hb e1 e2 hW hs
  obtain ⟨r, l, rfl, h2, h3⟩ := hm
  change List (c.erase.Msg .out) at m
  obtain ⟨ra, la, rfl, h4, h5⟩ := ha
  have hr' : Resolves T S P path s ns ns' inner := fun i n k hm => hr i n k (.array hm)
  have hal : (atlasOf isField (.comp (.array c)) m).2 = m.map (Ts.cAtlas false c.erase) := rfl
  have hlen : m.length = l.length := h3.length_eq
  have hs : Ts.serEach (fun p w => (Ts.put (Ts.serializeVarint (Ts.cSize c.erase p.2)) w).bind (Ts.cSer false c.erase p.1 p.2))
    (m.zip (m.map (Ts.cAtlas false c.erase))) w = some w' := hs
  rw [serEach_zip] at hs
  rw [hal] at h5
  have h5 := forall₂_unmap h5
  have hl := fun c' => Loops.count (cond := fun n => Ex.eval (ctx P path n) (.bin .lt (.var .i) (.prop (.var .oldPayload) "length".toList)))
    (body := fun n => forBody (ctx P path n) (stms [
          .const .payload (.index (TsGen.v .oldPayload) (TsGen.v .i)),
          .const .payloadAtlas (.index (TsGen.v .oldPayloadAtlas).elements (TsGen.v .i)),
          setOffset (.runtime .serializeVarint (args [TsGen.v .dataView, TsGen.v .offset, .builtin .bigInt (args [atlasLookup inner])]))] ++
          serialization T s ns' false inner)) (L := m.length)
    (fun i s => ∃ x, s = ⟨(.i, .let_ (natV i)) :: (.oldPayload, .const (.arr r)) ::
      (.oldPayloadAtlas, .const (.obj [("$size".toList, natV (atlasOf isField (.comp (.array c)) m).1), ("$elements".toList, .arr ra)])) :: update .offset (natV x.off) env, h.set b (.buf x.buf), sc⟩ ∧
      x.buf.length = w.buf.length ∧ Ts.serEach (fun a w => (Ts.put (Ts.serializeVarint (Ts.cSize c.erase (Ts.cAtlas false c.erase a))) w).bind
        (Ts.cSer false c.erase a (Ts.cAtlas false c.erase a))) (m.drop i) x = some w') ?_ ?_ m.length 0 (Nat.zero_add _) c'
  rotate_left
  · rintro i s ⟨x, rfl, hx, hs⟩ hi
    refine .of fun n => (run_done _ _).symm.trans ?_
    tsrun [run_arr_length (hH.set hb (.buf x.buf) _ _ h2), hlen]
  · rintro i s ⟨x, rfl, hx, hs⟩ hi
    obtain ⟨a, va, vb, g1, g2, g3, g4, g5⟩ := forall₂_both h3 h5 hi
    rw [g5, Ts.serEach, Option.bind_eq_some_iff] at hs
    obtain ⟨y, hy, hs⟩ := hs
    rw [Option.bind_eq_some_iff] at hy
    obtain ⟨z, hz, hy⟩ := hy
    have hzl := (Ts.put_inv hz).2
    have hn := hW.next hx
    have hn2 := hn.next hzl
    obtain ⟨q1, N, q2⟩ := ih ns' path false a va vb ((.payload, .const va) :: (.payloadAtlas, .const vb) :: (.i, .let_ (natV i)) :: (.oldPayload, .const (.arr r)) ::
      (.oldPayloadAtlas, .const (.obj [("$size".toList, natV (atlasOf isField (.comp (.array c)) m).1), ("$elements".toList, .arr ra)])) ::
        update .offset (natV z.off) (update .offset (natV x.off) env)) ((h.set b (.buf x.buf)).set b (.buf z.buf)) sc H b len z y hc hr' g3 g4
        ((hH.set hb _).set hb _) hb (by tsrun) (by tsrun)
        (((((hn2.enter (x := .oldPayloadAtlas) nofun nofun _).enter (x := .oldPayload) nofun nofun _).enter (x := .i) nofun nofun _).enter (x := .payloadAtlas) nofun nofun _).enter (x := .payload) nofun nofun _) hy
    refine ⟨_, .undef, ⟨y, rfl, q1.trans (hzl.trans hx), hs⟩, N + 16, fun n hn' => ?_⟩
    refine (run_done _ _).symm.trans ?_
    unfold forBody
    tsrun [serialization_declared, run_arr_index (hH.set hb (.buf x.buf) _ _ h2) g1, Ex.elements,
      run_member (show member "$elements".toList [("$size".toList, natV (atlasOf isField (.comp (.array c)) m).1), ("$elements".toList, .arr ra)] = some (.arr ra) from rfl),
      run_arr_index (hH.set hb (.buf x.buf) _ _ h4) g2, lookup_setCell_ne, assignable_setCell_ne, ne_eq, hW.view, hn.off, hc.runtime, hc.root]
    rw [run_atlasLookup ht g4 (by tsrun)]
    have hts : Ts.tSize (NTy.comp c).erase (Ts.cAtlas false c.erase a) = Ts.cSize c.erase (Ts.cAtlas false c.erase a) := rfl
    tsrun [hts, hc.root, run_callVarint hc (show 16 ≤ n by omega) hn.buf hn.length hz, hn.assign]
    refine (run_eq (q2 n (by omega)) _).trans ?_
    tsrun [setCell_setCell, List.set_set]
  obtain ⟨s', ⟨x, rfl, hx, hs'⟩, hl⟩ := hl _ ⟨w, rfl, rfl, hs⟩
  rw [List.drop_length] at hs'
  cases hs'
  refine ⟨hx, hl.ev.mono fun n hn => ?_⟩
  rw [update_self env hW.assign hW.off, set_same hW.buf] at hn
  refine (run_done _ _).symm.trans ?_
  unfold serialization
  rw [if_pos ht.sized_comp]
  tsrun [e1, e2, Ex.length, run_for]
  refine (run_eq hn _).trans ?_
  tsrun

theorem serOk_custom (ns : Namespace) (s : Schema) (i : Option Identifier) (n : Identifier) (k : List Str × Str) (c : NCTy)
    (hk : s.RefersTo ns i n k) (hN : Named T S k c) (ih : SerFnOk P c) : SerOk T S P ns s (.custom i n) (.comp c) := by
  intro ns' path isField m v va env h sc H b len w w' hc hr hm ha hH hb e1 e2 hW hs
  obtain ⟨h1, N, h3⟩ := ih isField m v va env h sc H b len w w' hm ha hH hb hW.buf hW.length hs
  refine ⟨h1, N, fun q hq => ?_⟩
  obtain ⟨ns₂, s₂, d₂, hd, hp⟩ := named_path hN
  have hres := hr i n k (.custom _ _) hk ns₂ s₂ d₂ hd
  rw [← hp] at hres
  refine (run_done _ _).symm.trans ?_
  unfold serialization
  simp only [stms, Stms.ofList, setOffset]
  rw [run_stms_cons, run_assignS, run_path (ctx P path q) _ _ (by exact hres)]
  tsrun [hW.view, hW.off, e1, e2, run_eq (h3 q hq), hW.assign]

end

end Typical.TsGen
