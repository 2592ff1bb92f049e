import Verif.Gen.DevSim
import Verif.TotalLemmas

/-!
# Helper: operations on devices agree with operations on byte lists
-/

namespace Typical.Gen

/-! ### Readers -/

theorem RR.view {F : Faults} {t : Bytes} {a : Bytes} {l : List Bytes} {r : Reader} (h : RR F t a l r) : Typical.view r t = a := by
  cases l with
  | nil => exact h.1
  | cons b l => exact h.1

theorem RR.collapse {F : Faults} {t : Bytes} : (j : Nat) → (a : Bytes) → (l : List Bytes) → (r : Reader) → RR F t a l r → Rest F r t → j ≤ l.length →
    ∃ b l', collapse j (a :: l) = b :: l' ∧ l'.length = l.length - j ∧ RR F t b l' (unwrap j r) ∧ Rest F (unwrap j r) t
  | 0, a, l, r, h, hr, _ => ⟨a, l, by cases l <;> rfl, rfl, h, hr⟩
  | j + 1, a, [], r, h, hr, hj => by cases hj
  | j + 1, a, b :: l, r, h, hr, hj => by
    obtain ⟨-, ⟨n, e⟩, h2⟩ := h
    have hr' : Rest F r.inner t := by rw [e] at hr; exact ⟨hr.1, hr.2⟩
    obtain ⟨c, l', h3, h4, h5, h6⟩ := RR.collapse j (a ++ b) l r.inner h2 hr' (Nat.le_of_succ_le_succ hj)
    refine ⟨c, l', ?_, ?_, h5, h6⟩
    · rw [← h3]
      rfl
    · rw [h4, List.length_cons]
      omega

theorem RR.adv {F : Faults} {P : Kind → Prop} {t : Bytes} {k : Nat} : (l : List Bytes) → (a : Bytes) → (r r' : Reader) → RR F t a l r → Adv P t k r r' → k ≤ a.length →
    RR F (t.drop k) (a.drop k) l r'
  | [], a, r, r', h, ha, hk => by
    rw [← show Typical.view r t = a from h.1]
    exact ⟨ha.view, fun hs => by rw [ha.view, h.2 hs]⟩
  | b :: l, a, r, r', h, ha, hk => by
    obtain ⟨h1, ⟨n, e⟩, h2⟩ := h
    rw [e] at ha
    have h3 := RR.adv l (a ++ b) r.inner r'.inner h2 ha.inner (by rw [List.length_append]; omega)
    rw [List.drop_append_of_le_length hk] at h3
    refine ⟨?_, ?_, h3⟩
    · rw [← h1, e]
      exact ha.view
    · cases r' with
      | device _ _ => exact ha.elim
      | take n' r' => exact ⟨n', rfl⟩

/-- The reader at depth `k`. -/
theorem Rel.focus {F : Faults} {s : St} {d : DSt} (hd : Rel F s d) {k : Nat} {b : Bytes} {l : List Bytes} (hk : 0 < k ∧ k ≤ s.readers.length)
    (hc : collapse (s.readers.length - k) s.readers = b :: l) : ∃ r t, d.focus k = some { d with reader := r, depth := k } ∧
      k = l.length + 1 ∧ Rest F r t ∧ RR F t b l r := by
  have h := hd.readers
  have hlen := hd.depth
  cases hr : s.readers with
  | nil => rw [hr] at hk; simp at hk; omega
  | cons a l0 =>
    rw [hr] at h hk hc hlen
    obtain ⟨t, h1, h2⟩ := h
    simp only [List.length_cons] at hk hc hlen
    obtain ⟨b', l', e1, e2, e3, e4⟩ := RR.collapse (l0.length + 1 - k) a l0 d.reader h2 h1 (by omega)
    rw [e1] at hc
    cases hc
    refine ⟨_, t, ?_, by omega, e4, e3⟩
    simp only [DSt.focus, hlen, if_pos hk]

theorem Rest.adv {F : Faults} {r r' : Reader} {t : Bytes} {j : Nat} (h : Rest F r t) (ha : Adv F.reads t j r r') : Rest F r' (t.drop j) := by
  refine ⟨ha.rep, fun hs => ?_⟩
  have h1 := h.short hs
  have h2 := ha.calls
  rw [List.length_drop]
  omega

/-- After reading `j` bytes. -/
theorem Rel.advance {F : Faults} {s : St} {d : DSt} (hd : Rel F s d) {k : Nat} {b : Bytes} {l : List Bytes} {r r' : Reader} {t : Bytes} {j : Nat}
    (hk : k = l.length + 1) (hr : Rest F r t) (h : RR F t b l r) (ha : Adv F.reads t j r r') (hj : j ≤ b.length) (env : List (Var × Val)) :
    Rel F { s with env := env, readers := b.drop j :: l } { d with env := env, reader := r', depth := k } :=
  ⟨rfl, by rw [hk]; rfl, hd.written, hd.writer, ⟨_, hr.adv ha, RR.adv l b r r' h ha hj⟩⟩

theorem Rel.advance' {F : Faults} {s : St} {d : DSt} (hd : Rel F s d) {k : Nat} {b : Bytes} {l : List Bytes} {r r' : Reader} {t : Bytes} {j : Nat}
    (hk : k = l.length + 1) (hr : Rest F r t) (h : RR F t b l r) (ha : Adv F.reads t j r r') (hj : j ≤ b.length) :
    Rel F { s with readers := b.drop j :: l } { d with reader := r', depth := k } :=
  ⟨hd.env, by rw [hk]; rfl, hd.written, hd.writer, ⟨_, hr.adv ha, RR.adv l b r r' h ha hj⟩⟩

theorem Rel.fault {F : Faults} {s : St} {d : DSt} (hd : Rel F s d) {e : Kind} (he : F.reads e) : Fault F e d.writer s.out :=
  ⟨hd.written ▸ List.prefix_refl _, .inl he⟩

theorem Sim.take {F : Faults} {l : Level} {k n : Nat} : Sim F l (.take k n) (fun _ => .take k n) := by
  intro s o s' h
  unfold M.take at h
  split at h
  case isFalse => cases h
  case isTrue hk =>
    split at h
    case h_1 => cases h
    case h_2 b l hc =>
      cases h
      refine ⟨List.prefix_refl _, fun d hd => ?_⟩
      obtain ⟨r, t, e1, e2, e3, e4⟩ := hd.focus hk hc
      refine .same (d' := { d with reader := .take n r, depth := k + 1 }) (by nofun) ?_ (.of fun _ => by simp only [DM.take, e1, Option.map_some])
      refine ⟨hd.env, ?_, hd.written, hd.writer, ⟨t, ⟨e3.1, e3.2⟩, ?_, ⟨n, rfl⟩, ?_⟩⟩
      · rw [e2]; rfl
      · rw [Typical.view, e4.view]
      · rw [List.take_append_drop]
        exact e4

/-! ### Writers -/

theorem Rel.wrote {F : Faults} {s : St} {d : DSt} (hd : Rel F s d) {b : Bytes} {events : List WEvent} (h : events <:+ d.writer.events) :
    Rel F { s with out := s.out ++ b } { d with writer := ⟨d.writer.written ++ b, events⟩ } := by
  refine ⟨hd.env, hd.depth, by rw [hd.written], ⟨fun k hk => hd.writer.1 k (h.subset hk), fun hk => hd.writer.2 (h.subset hk)⟩, hd.readers⟩

theorem Rel.writeFault {F : Faults} {s : St} {d : DSt} (hd : Rel F s d) {b p : Bytes} {events : List WEvent} {k : Kind} (hp : p <+: b) (hne : p ≠ b)
    (h : k ≠ .interrupted ∧ .fail k ∈ d.writer.events ∨ k = .writeZero ∧ .accept 0 ∈ d.writer.events) :
    Fault F k ⟨d.writer.written ++ p, events⟩ (s.out ++ b) := by
  refine ⟨?_, .inr ⟨?_, ?_⟩⟩
  · rw [hd.written]
    exact (List.prefix_append_right_inj _).mpr hp
  · rcases h with ⟨h1, h2⟩ | ⟨rfl, h2⟩
    · exact hd.writer.1 k h2 h1
    · exact hd.writer.2 h2
  · rw [hd.written]
    intro e
    exact hne (List.append_cancel_left e)

theorem Sim.write {F : Faults} {b : Bytes} : Sim F .tail (.write b) (fun _ => .write b) := by
  intro s o s' h
  cases h
  refine ⟨List.prefix_append _ _, fun d hd => ?_⟩
  rcases writeAll_sim b d.writer with ⟨ev, h1, h2⟩ | ⟨p, ev, k, h1, h2, h3, h4, h5⟩
  · exact .same (by nofun) (hd.wrote h1) (.of fun _ => by simp only [DM.write, h2, ofIo, Option.map_some])
  · exact .val (d' := { d with writer := ⟨d.writer.written ++ p, ev⟩ }) rfl (hd.writeFault h1 h2 h5)
      (.of fun _ => by simp only [DM.write, h4, ofIo, Option.map_some])

/-! ### Reading into variables -/

theorem readToEnd_step {P : Kind → Prop} {r : Reader} {t : Bytes} (h : Rep P r t) :
    (∃ k r', P k ∧ readToEndR r = (.error (.io k), r')) ∨ ∃ r', readToEndR r = (.ok (view r t), r') ∧ Adv P t (view r t).length r r' :=
  readToEndLoop_sim 32 (by decide) _ r (Nat.lt_succ_self _) h

theorem Sim.read {F : Faults} {f : ReadFn} {k : Nat} {v : Var} : Sim F .tail (.read f k v) (fun _ => .read f k v) := by
  intro s o s' h
  unfold M.read at h
  split at h
  case isFalse => cases h
  case isTrue hk =>
    split at h
    case h_2 => cases h
    case h_1 b l x hc hx =>
      cases hf : f.run x b with
      | none => rw [hf] at h; cases h
      | some q =>
        rw [hf] at h
        cases h
        refine ⟨List.prefix_refl _, fun d hd => ?_⟩
        obtain ⟨r, t, e1, e2, e3, e4⟩ := hd.focus hk hc
        have hv := e4.view
        have hx' : lookup v d.env = some x := by rw [hd.env]; exact hx
        have key : (∃ e r', F.reads e ∧ f.runD x r = some (.err e, x, r')) ∨
            ∃ j r', f.runD x r = some (q.1, q.2.1, r') ∧ q.2.2 = b.drop j ∧ j ≤ b.length ∧ Adv F.reads t j r r' := by
          unfold ReadFn.run at hf
          split at hf
          · rename_i c
            rcases (readExactR_sim (P := F.reads) c.length r).step e3.rep with ⟨e, r', h1, h2⟩ | ⟨r', h1, h2, h3⟩ | ⟨a, r', j, h1, h2, h3, h4⟩
            · exact .inl ⟨e, r', h1, by simp only [ReadFn.runD, h2, ofIo, Option.map_some]⟩
            · rw [hv] at h1 h3
              rw [h1] at hf
              cases hf
              exact .inr ⟨_, r', by simp only [ReadFn.runD, h2, ofIo, Option.map_some], (List.drop_length).symm, Nat.le_refl _, h3⟩
            · rw [hv] at h1 h3
              rw [h1] at hf
              cases hf
              exact .inr ⟨j, r', by simp only [ReadFn.runD, h2], rfl, h3, h4⟩
          · rcases readToEnd_step e3.rep with ⟨e, r', h1, h2⟩ | ⟨r', h2, h3⟩
            · exact .inl ⟨e, r', h1, by simp only [ReadFn.runD, h2, ofIo, Option.map_some]⟩
            · rw [hv] at h2 h3
              cases hf
              exact .inr ⟨_, r', by simp only [ReadFn.runD, h2], (List.drop_length).symm, Nat.le_refl _, h3⟩
          · rcases readToEnd_step e3.rep with ⟨e, r', h1, h2⟩ | ⟨r', h2, h3⟩
            · exact .inl ⟨e, r', h1, by simp only [ReadFn.runD, h2, ofIo, Option.map_some]⟩
            · rw [hv] at h2 h3
              split at hf
              case isTrue hu =>
                cases hf
                exact .inr ⟨_, r', by simp only [ReadFn.runD, h2, if_pos hu], (List.drop_length).symm, Nat.le_refl _, h3⟩
              case isFalse hu =>
                cases hf
                exact .inr ⟨_, r', by simp only [ReadFn.runD, h2, if_neg hu], (List.drop_length).symm, Nat.le_refl _, h3⟩
          · cases hf
        rcases key with ⟨e, r', h1, h2⟩ | ⟨j, r', h1, h2, h3, h4⟩
        · exact .val (d' := { d with env := assign v x d.env, reader := r', depth := k }) rfl (hd.fault h1)
            (.of fun _ => by simp only [DM.read, e1, hx', h2, Option.map_some])
        · refine .same (d' := { d with env := assign v q.2.1 d.env, reader := r', depth := k }) (by nofun) ?_ (.of fun _ => by simp only [DM.read, e1, hx', h1, Option.map_some])
          rw [h2, hd.env]
          exact hd.advance e2 e3 e4 h4 h3 _

/-! ### The functions at the top of the file -/

section
variable {t : Rt.Target}

theorem runD_val {f : RuntimeFn} {vs : List Val} {rs : List Rt.RVal} {d d1 : DSt} {v : Rt.RVal} {x : Val} {r : Reader} {w : Writer}
    (h1 : toRs vs = some rs) (h2 : d.focusArg vs = some d1) (h : Rt.Runs t Rt.io f.fn rs (d1.reader, d1.writer) (.val v) (r, w)) (h3 : ofR v = some x) :
    Ev (fun n => f.runD t n vs d = some (.val x, { d1 with reader := r, writer := w })) := by
  obtain ⟨N, h⟩ := h
  refine ⟨N, fun n hn => ?_⟩
  simp only [RuntimeFn.runD, h1, h2, h n hn, h3, Option.map_some]

theorem runD_hang {f : RuntimeFn} {vs : List Val} {rs : List Rt.RVal} {d d1 : DSt}
    (h1 : toRs vs = some rs) (h2 : d.focusArg vs = some d1) (h : Rt.Diverges t Rt.io f.fn rs (d1.reader, d1.writer)) :
    Ev (fun n => f.runD t n vs d = none) := by
  refine .of fun n => ?_
  simp only [RuntimeFn.runD, h1, h2, h n]

/-- Does the function neither read nor write? -/
def RuntimeFn.isPure : RuntimeFn → Bool
  | .zigzagEncode => true
  | .zigzagDecode => true
  | .varintSizeFromValue => true
  | .fieldHeaderSize => true
  | _ => false

/-- Functions which only read. -/
theorem Sim.ofReader {F : Faults} {m' : Nat → DM} {k : Nat} {f : Bytes → Out × Bytes}
    (h : ∀ (d : DSt) (r : Reader) (tt b : Bytes), d.focus k = some { d with reader := r, depth := k } → Rep F.reads r tt → view r tt = b →
      (∃ e r', F.reads e ∧ Ev (fun n => m' n d = some (.val (.err e), { d with reader := r', depth := k }))) ∨
      ((f b).1 = .fail .hang ∧ Ev (fun n => m' n d = Option.none)) ∨
      ∃ j r', (f b).1 ≠ .fail .hang ∧ Ev (fun n => m' n d = some ((f b).1, { d with reader := r', depth := k })) ∧ (f b).2 = b.drop j ∧ j ≤ b.length ∧ Adv F.reads tt j r r') :
    Sim F .tail (.withReader k f) m' := by
  intro s o s' h0
  unfold M.withReader at h0
  split at h0
  case isFalse => cases h0
  case isTrue hk =>
    split at h0
    case h_1 => cases h0
    case h_2 b l hc =>
      cases h0
      refine ⟨List.prefix_refl _, fun d hd => ?_⟩
      obtain ⟨r, tt, e1, e2, e3, e4⟩ := hd.focus hk hc
      rcases h d r tt b e1 e3.rep e4.view with ⟨e, r', h1, h2⟩ | ⟨h1, h2⟩ | ⟨j, r', h0, h1, h2, h3, h4⟩
      · exact .val (d' := { d with reader := r', depth := k }) rfl (hd.fault h1) h2
      · rw [h1]
        exact .hang h2
      · refine .same (d' := { d with reader := r', depth := k }) h0 ?_ h1
        rw [h2]
        exact hd.advance' e2 e3 e4 h4 h3

theorem Sim.runtime {F : Faults} (ht : t.bits = 64) (f : RuntimeFn) (vs : List Val) {l : Level} (hl : f.isPure = true ∨ l = .tail) :
    Sim F l (f.run vs) (fun n => f.runD t n vs) := by
  have hb : 16 ≤ t.bits := by omega
  unfold RuntimeFn.run
  split
  · intro s o s' h
    cases h
    exact ⟨List.prefix_refl _, fun d hd => .same (by nofun) hd (runD_val rfl rfl (Rt.runs_zigzagEncode t _ _ _) rfl)⟩
  · intro s o s' h
    cases h
    exact ⟨List.prefix_refl _, fun d hd => .same (by nofun) hd (runD_val rfl rfl (Rt.runs_zigzagDecode t _ _ _) rfl)⟩
  · intro s o s' h
    cases h
    exact ⟨List.prefix_refl _, fun d hd => .same (by nofun) hd (runD_val rfl rfl (Rt.runs_varintSizeFromValue t _ _ _) rfl)⟩
  · intro s o s' h
    cases h
    exact ⟨List.prefix_refl _, fun d hd => .same (by nofun) hd (runD_val rfl rfl (Rt.runs_fieldHeaderSize t hb _ _ _ _ _) rfl)⟩
  · rename_i v
    obtain rfl : l = .tail := by simpa [RuntimeFn.isPure] using hl
    intro s o s' h
    cases h
    refine ⟨List.prefix_append _ _, fun d hd => ?_⟩
    have hr := Rt.runs_serializeVarint t Rt.io v (d.reader, d.writer)
    rcases writeAll_sim (Typical.serializeVarint v) d.writer with ⟨ev, h1, h2⟩ | ⟨p, ev, k, h1, h2, h3, h4, h5⟩
    · simp only [Rt.wrote, Rt.io, h2, Rt.ofDevice] at hr
      exact .same (by nofun) (hd.wrote h1) (runD_val (f := .serializeVarint) rfl rfl hr rfl)
    · simp only [Rt.wrote, Rt.io, h4, Rt.ofDevice] at hr
      exact .val rfl (hd.writeFault h1 h2 h5) (runD_val (f := .serializeVarint) rfl rfl hr rfl)
  · rename_i i n b
    obtain rfl : l = .tail := by simpa [RuntimeFn.isPure] using hl
    intro s o s' h
    cases h
    refine ⟨List.prefix_append _ _, fun d hd => ?_⟩
    have hr := Rt.runs_serializeFieldHeader t d.reader d.writer i n b
    rcases serializeFieldHeaderW_sim i.toNat n b d.writer with ⟨ev, h1, h2⟩ | ⟨p, ev, k, h1, h2, h3, h4, h5⟩
    · simp only [h2, Rt.ofDevice] at hr
      exact .same (by nofun) (hd.wrote h1) (runD_val (f := .serializeFieldHeader) rfl rfl hr rfl)
    · simp only [h4, Rt.ofDevice] at hr
      exact .val rfl (hd.writeFault h1 h2 h5) (runD_val (f := .serializeFieldHeader) rfl rfl hr rfl)
  · rename_i k
    obtain rfl : l = .tail := by simpa [RuntimeFn.isPure] using hl
    refine .ofReader fun d r tt b hf hr hv => ?_
    have run := Rt.runs_deserializeVarint t hb r d.writer
    rcases (deserializeVarintR_sim (P := F.reads) r).step hr with ⟨e, r', h1, h2⟩ | ⟨r', h1, h2, h3⟩ | ⟨a, r', j, h1, h2, h3, h4⟩
    · rw [h2] at run
      exact .inl ⟨e, r', h1, runD_val (f := .deserializeVarint) (vs := [.reader k]) rfl hf run rfl⟩
    · rw [h2] at run
      rw [hv] at h1 h3
      rw [h1]
      exact .inr (.inr ⟨_, r', by nofun, runD_val (f := .deserializeVarint) (vs := [.reader k]) rfl hf run rfl, (List.drop_length).symm, Nat.le_refl _, h3⟩)
    · rw [h2] at run
      rw [hv] at h1 h3
      rw [h1]
      exact .inr (.inr ⟨j, r', by nofun, runD_val (f := .deserializeVarint) (vs := [.reader k]) rfl hf run rfl, rfl, h3, h4⟩)
  · rename_i k
    obtain rfl : l = .tail := by simpa [RuntimeFn.isPure] using hl
    refine .ofReader fun d r tt b hf hr hv => ?_
    have run := Rt.runs_deserializeFieldHeader t hb r d.writer
    rcases headerR_step (P := F.reads) hr with ⟨e, r', h1, h2⟩ | ⟨r', h1, h2, h3⟩ | ⟨i, n, r', j, h1, h2, h3, h4, h5⟩
    · rw [h2] at run
      exact .inl ⟨e, r', h1, runD_val (f := .deserializeFieldHeader) (vs := [.reader k]) rfl hf run rfl⟩
    · rw [h2] at run
      rw [hv] at h1 h3
      rw [h1]
      exact .inr (.inr ⟨_, r', by nofun, runD_val (f := .deserializeFieldHeader) (vs := [.reader k]) rfl hf run rfl, (List.drop_length).symm, Nat.le_refl _, h3⟩)
    · rw [h2] at run
      rw [hv] at h1 h4
      rw [h1]
      have hn : n < 2 ^ 64 := by
        rcases deserializeFieldHeader_size h1 with h | ⟨_, v, _, _, _, h⟩
        · omega
        · rw [← h]; exact v.toNat_lt
      refine .inr (.inr ⟨j, r', by nofun, runD_val (f := .deserializeFieldHeader) (vs := [.reader k]) rfl hf run ?_, rfl, h4, h5⟩)
      simp only [Rt.headerVal, ht, ofR, Option.map_some, Nat.mod_eq_of_lt hn]
  · rename_i k n
    obtain rfl : l = .tail := by simpa [RuntimeFn.isPure] using hl
    split
    case isFalse => exact .none
    case isTrue hn =>
      have hn' : n < 2 ^ t.bits := by rw [ht]; exact hn
      refine .ofReader fun d r tt b hf hr hv => ?_
      rcases skipLoop_sim (P := F.reads) (r.calls + 1) n r (Nat.lt_succ_self _) hr with ⟨e, r', h1, h2⟩ | ⟨r', h1, h2⟩ | ⟨r', h1, h2, h3⟩
      · have run := Rt.runs_skip t n hn' r d.writer (by rw [skipR, h2]; simp)
        rw [skipR, h2] at run
        exact .inl ⟨e, r', h1, runD_val (f := .skip) (vs := [.reader k, .usize n]) rfl hf run rfl⟩
      · rw [hv] at h1
        have : Typical.skip n b = .error .hang := by unfold Typical.skip; rw [if_neg (by omega)]
        rw [this]
        exact .inr (.inl ⟨rfl, runD_hang (f := .skip) (vs := [.reader k, .usize n]) rfl hf (Rt.diverges_skip t n hn' r r' d.writer h2)⟩)
      · rw [hv] at h1
        have : Typical.skip n b = .ok (b.drop n) := by unfold Typical.skip; rw [if_pos (by omega)]
        rw [this]
        have run := Rt.runs_skip t n hn' r d.writer (by rw [skipR, h2]; simp)
        rw [skipR, h2] at run
        exact .inr (.inr ⟨n, r', by nofun, runD_val (f := .skip) (vs := [.reader k, .usize n]) rfl hf run rfl, rfl, h1, h3⟩)
  · rename_i k
    obtain rfl : l = .tail := by simpa [RuntimeFn.isPure] using hl
    refine .ofReader fun d r tt b hf hr hv => ?_
    have run := Rt.runs_finish t r d.writer
    rcases finishLoop_sim (P := F.reads) (r.calls + 1) r (Nat.lt_succ_self _) hr with ⟨e, r', h1, h2⟩ | ⟨r', h1, h2⟩
    · rw [finishR, h2] at run
      exact .inl ⟨e, r', h1, runD_val (f := .finish) (vs := [.reader k]) rfl hf run rfl⟩
    · rw [finishR, h1] at run
      rw [hv] at h2
      exact .inr (.inr ⟨_, r', by nofun, runD_val (f := .finish) (vs := [.reader k]) rfl hf run rfl, (List.drop_length).symm, Nat.le_refl _, h2⟩)
  · exact .none

end

/-! ### Operators -/

theorem Sim.bin {F : Faults} {l : Level} {t : Rt.Target} (ht : t.bits = 64) (op : BinOp) (x y : Val) :
    Sim F l (.ofOption (op.run x y)) (fun _ => .ofOut (op.runD t x y)) := by
  cases h : op.run x y with
  | none => exact .none
  | some v =>
    have : op.runD t x y = some (.val v) := by
      unfold BinOp.run at h
      split at h
      · split at h
        case isTrue hb => cases h; simp only [BinOp.runD, usizeResult, ht, if_pos hb]
        case isFalse => cases h
      · split at h
        case isTrue hb => cases h; simp only [BinOp.runD, usizeResult, ht, if_pos hb]
        case isFalse => cases h
      all_goals (cases h; try rfl)
    rw [this]
    exact .pure

theorem Sim.asUsize {F : Faults} {l : Level} {t : Rt.Target} (ht : t.bits = 64) (x : Val) : Sim F l (.ofOption x.asUsize) (fun _ => .ofOption (x.asUsizeD t)) := by
  have : x.asUsizeD t = x.asUsize := by
    cases x with
    | u64 v => simp only [Val.asUsizeD, Val.asUsize, ht, Nat.mod_eq_of_lt v.toNat_lt]
    | _ => rfl
  rw [this]
  exact .ofOption

theorem Sim.std {F : Faults} {l : Level} (f : StdFn) (vs : List Val) : Sim F l (f.run vs) (fun _ => f.runD vs) := by
  unfold StdFn.run
  split <;> first | exact .pure | exact .take | exact .none

end Typical.Gen
