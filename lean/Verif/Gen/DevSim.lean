import Verif.Gen.DevSem
import Verif.Gen.Ev
import Verif.Gen.RuntimeProof
import Verif.IoWriteLemmas

/-!
# Helper: executions on devices agree with executions on byte lists
-/

namespace Typical.Gen

/-- How a computation can deviate from its execution on byte lists when a device fails: not at all; by `return Err(e)`; or also by having the
value `Err(e)`. -/
inductive Level
  | pure
  | guarded
  | tail
  deriving DecidableEq

/-- The level of a subexpression whose value is used. -/
def Level.arg : Level → Level
  | .pure => .pure
  | _ => .guarded

/-- The level of the operand of `?`. -/
def Level.tried : Level → Level
  | .pure => .pure
  | _ => .tail

/-- What devices do: the kinds of errors which readers and writers report. -/
structure Faults where
  reads : Kind → Prop
  writes : Kind → Prop
  /-- Does the device deliver fewer bytes than there are in the corresponding execution on byte lists? -/
  short : Prop

/-- The reader `r` offers `a`; its parents offer after that what the list says. The device delivers `t`. -/
def RR (F : Faults) (t : Bytes) : Bytes → List Bytes → Reader → Prop
  | a, [], r => view r t = a ∧ (F.short → view r t = t)
  | a, b :: l, r => view r t = a ∧ (∃ n, r = .take n r.inner) ∧ RR F t (a ++ b) l r.inner

/-- The device of the reader delivers `t` until it fails. -/
structure Rest (F : Faults) (r : Reader) (t : Bytes) : Prop where
  rep : Rep F.reads r t
  short : F.short → r.calls < t.length

/-- What the readers offer, for an execution on byte lists and one on devices. -/
def Rds (F : Faults) : List Bytes → Reader → Prop
  | [], _ => True
  | a :: l, r => ∃ t, Rest F r t ∧ RR F t a l r

/-- The errors which a writer reports. -/
def WOk (F : Faults) (w : Writer) : Prop :=
  (∀ k, .fail k ∈ w.events → k ≠ .interrupted → F.writes k) ∧ (.accept 0 ∈ w.events → F.writes .writeZero)

/-- The states of the two executions correspond. -/
structure Rel (F : Faults) (s : St) (d : DSt) : Prop where
  env : d.env = s.env
  depth : d.depth = s.readers.length
  written : d.writer.written = s.out
  writer : WOk F d.writer
  readers : Rds F s.readers d.reader

/-- A device has reported this error; `out` would have been written without it. -/
def Fault (F : Faults) (k : Kind) (w : Writer) (out : Bytes) : Prop :=
  w.written <+: out ∧ (F.reads k ∨ F.writes k ∧ w.written ≠ out)

theorem Fault.mono {F : Faults} {k : Kind} {w : Writer} {out out' : Bytes} (h : Fault F k w out) (h' : out <+: out') : Fault F k w out' := by
  refine ⟨h.1.trans h', h.2.imp id fun ⟨h1, h2⟩ => ⟨h1, fun e => h2 ?_⟩⟩
  refine h.1.eq_of_length (Nat.le_antisymm h.1.length_le ?_)
  rw [e]
  exact h'.length_le

/-- How the execution on devices ends, given how the one on byte lists ends. -/
inductive Res (F : Faults) (l : Level) : Out → St → (Nat → Option (Out × DSt)) → Prop
  | same {o s' x d'} : o ≠ .fail .hang → Rel F s' d' → Ev (fun n => x n = some (o, d')) → Res F l o s' x
  | fail {e s' x d'} : e ≠ .hang → Ev (fun n => x n = some (.fail e, d')) → Res F l (.fail e) s' x
  | hang {s' x} : Ev (fun n => x n = none) → Res F l (.fail .hang) s' x
  | ret {o s' x d' k} : l ≠ .pure → Fault F k d'.writer s'.out → Ev (fun n => x n = some (.ret (.err k), d')) → Res F l o s' x
  | val {o s' x d' k} : l = .tail → Fault F k d'.writer s'.out → Ev (fun n => x n = some (.val (.err k), d')) → Res F l o s' x

theorem Res.congr {F : Faults} {l : Level} {o : Out} {s' : St} {x y : Nat → Option (Out × DSt)} (h : Res F l o s' y) (e : Ev (fun n => x n = y n)) :
    Res F l o s' x := by
  cases h with
  | same h0 h1 h2 => exact .same h0 h1 ((e.and h2).mono fun n h => h.1.trans h.2)
  | fail h1 h2 => exact .fail h1 ((e.and h2).mono fun n h => h.1.trans h.2)
  | hang h2 => exact .hang ((e.and h2).mono fun n h => h.1.trans h.2)
  | ret h0 h1 h2 => exact .ret h0 h1 ((e.and h2).mono fun n h => h.1.trans h.2)
  | val h0 h1 h2 => exact .val h0 h1 ((e.and h2).mono fun n h => h.1.trans h.2)

theorem Res.weaken {F : Faults} {l l' : Level} {o : Out} {s' : St} {x : Nat → Option (Out × DSt)} (h : Res F l o s' x) (h1 : l ≠ .pure → l' ≠ .pure)
    (h2 : l = .tail → l' = .tail) : Res F l' o s' x := by
  cases h with
  | same h0 h1 h2 => exact .same h0 h1 h2
  | fail h1 h2 => exact .fail h1 h2
  | hang h2 => exact .hang h2
  | ret h0 h3 h4 => exact .ret (h1 h0) h3 h4
  | val h0 h3 h4 => exact .val (h2 h0) h3 h4

/-- The execution on devices corresponds to that on byte lists. -/
def Sim (F : Faults) (l : Level) (m : M) (m' : Nat → DM) : Prop :=
  ∀ s o s', m s = some (o, s') → s.out <+: s'.out ∧ ∀ d, Rel F s d → Res F l o s' (fun n => m' n d)

theorem Sim.weaken {F : Faults} {l l' : Level} {m : M} {m' : Nat → DM} (h : Sim F l m m') (h1 : l ≠ .pure → l' ≠ .pure)
    (h2 : l = .tail → l' = .tail) : Sim F l' m m' :=
  fun s o s' e => ⟨(h s o s' e).1, fun d hd => ((h s o s' e).2 d hd).weaken h1 h2⟩

theorem Sim.ofPure {F : Faults} {l : Level} {m : M} {m' : Nat → DM} (h : Sim F .pure m m') : Sim F l m m' :=
  h.weaken (fun h => absurd rfl h) (nofun)

theorem Sim.none {F : Faults} {l : Level} {m' : Nat → DM} : Sim F l (fun _ => none) m' := fun _ _ _ h => by cases h

theorem Sim.pure {F : Faults} {l : Level} {v : Val} : Sim F l (.pure v) (fun _ => .pure v) := by
  intro s o s' h
  cases h
  exact ⟨List.prefix_refl _, fun d hd => .same (by first | assumption | nofun) hd (.of fun _ => rfl)⟩

theorem Sim.out {F : Faults} {l : Level} {o : Out} (ho : o ≠ .fail .hang) : Sim F l (fun s => some (o, s)) (fun _ s => some (o, s)) := by
  intro s o s' h
  cases h
  exact ⟨List.prefix_refl _, fun d hd => .same (by first | assumption | nofun) hd (.of fun _ => rfl)⟩

theorem Sim.ofOption {F : Faults} {l : Level} {v : Option Val} : Sim F l (.ofOption v) (fun _ => .ofOption v) := by
  cases v with
  | none => exact .none
  | some v => exact .pure

theorem Sim.get {F : Faults} {l : Level} {v : Var} : Sim F l (.get v) (fun _ => .get v) := by
  intro s o s' h
  unfold M.get at h
  cases hv : lookup v s.env with
  | none => rw [hv] at h; cases h
  | some x =>
    rw [hv] at h
    cases h
    exact ⟨List.prefix_refl _, fun d hd => .same (by first | assumption | nofun) hd (.of fun _ => by simp only [DM.get, hd.env, hv, Option.map_some])⟩

theorem Sim.modify {F : Faults} {l : Level} {v : Var} {f : Val → Option (Out × Val)} (hf : ∀ x r, f x = some r → r.1 ≠ .fail .hang) : Sim F l (.modify v f) (fun _ => .modify v f) := by
  intro s o s' h
  unfold M.modify at h
  cases hv : lookup v s.env with
  | none => rw [hv] at h; cases h
  | some x =>
    rw [hv] at h
    simp only at h
    cases hfx : f x with
    | none => rw [hfx] at h; cases h
    | some r =>
      rw [hfx] at h
      cases h
      refine ⟨List.prefix_refl _, fun d hd => .same (d' := { d with env := assign v r.2 d.env }) (hf _ _ hfx) ?_ (.of fun _ => by simp only [DM.modify, hd.env, hv, hfx, Option.map_some])⟩
      exact ⟨by simp only [hd.env], hd.depth, hd.written, hd.writer, hd.readers⟩

theorem Level.arg_pure {l : Level} (h : l.arg ≠ .pure) : l ≠ .pure := by cases l <;> simp_all [Level.arg]

theorem Level.arg_tail {l : Level} (h : l.arg = .tail) : False := by cases l <;> simp_all [Level.arg]

theorem Level.tried_pure {l : Level} (h : l.tried ≠ .pure) : l ≠ .pure := by cases l <;> simp_all [Level.tried]

theorem Level.tried_tail {l : Level} (h : l.tried = .tail) : l ≠ .pure := by cases l <;> simp_all [Level.tried]

theorem Sim.bind {F : Faults} {l : Level} {m : M} {m' : Nat → DM} {k : Val → M} {k' : Nat → Val → DM} (hm : Sim F l.arg m m')
    (hk : ∀ v, Sim F l (k v) (fun n => k' n v)) : Sim F l (m.bind k) (fun n => (m' n).bind (k' n)) := by
  intro s o s' h
  unfold M.bind at h
  cases hms : m s with
  | none => rw [hms] at h; cases h
  | some r =>
    obtain ⟨o1, s1⟩ := r
    obtain ⟨p1, q1⟩ := hm s o1 s1 hms
    rw [hms] at h
    cases o1 with
    | val v =>
      obtain ⟨p2, q2⟩ := hk v s1 o s' h
      refine ⟨p1.trans p2, fun d hd => ?_⟩
      cases q1 d hd with
      | same _ hr he => exact (q2 _ hr).congr (he.mono fun n h => by simp only [DM.bind, h])
      | ret hl hf he => exact .ret (Level.arg_pure hl) (hf.mono p2) (he.mono fun n h => by simp only [DM.bind, h])
      | val hl => exact (Level.arg_tail hl).elim
    | brk =>
      cases h
      refine ⟨p1, fun d hd => ?_⟩
      cases q1 d hd with
      | same hn hr he => exact .same (by first | exact hn | nofun) hr (he.mono fun n h => by simp only [DM.bind, h])
      | ret hl hf he => exact .ret (Level.arg_pure hl) hf (he.mono fun n h => by simp only [DM.bind, h])
      | val hl => exact (Level.arg_tail hl).elim
    | ret v =>
      cases h
      refine ⟨p1, fun d hd => ?_⟩
      cases q1 d hd with
      | same hn hr he => exact .same (by first | exact hn | nofun) hr (he.mono fun n h => by simp only [DM.bind, h])
      | ret hl hf he => exact .ret (Level.arg_pure hl) hf (he.mono fun n h => by simp only [DM.bind, h])
      | val hl => exact (Level.arg_tail hl).elim
    | fail e =>
      cases h
      refine ⟨p1, fun d hd => ?_⟩
      cases q1 d hd with
      | same hn hr he => exact .same (by first | exact hn | nofun) hr (he.mono fun n h => by simp only [DM.bind, h])
      | @fail _ _ _ d' hn he => exact .fail (d' := d') hn (he.mono fun n h => by simp only [DM.bind, h])
      | hang he => exact .hang (he.mono fun n h => by simp only [DM.bind, h])
      | ret hl hf he => exact .ret (Level.arg_pure hl) hf (he.mono fun n h => by simp only [DM.bind, h])
      | val hl => exact (Level.arg_tail hl).elim

/-- What follows turns an error into `return`. -/
theorem Sim.catch {F : Faults} {l : Level} {m : M} {m' : Nat → DM} {k : Val → M} {k' : Nat → Val → DM} (hm : Sim F l.tried m m')
    (hk : ∀ v, Sim F l (k v) (fun n => k' n v))
    (hc : ∀ e d out, Fault F e d.writer out → ∃ d', d'.writer = d.writer ∧ Ev (fun n => k' n (.err e) d = some (.ret (.err e), d'))) :
    Sim F l (m.bind k) (fun n => (m' n).bind (k' n)) := by
  intro s o s' h
  unfold M.bind at h
  cases hms : m s with
  | none => rw [hms] at h; cases h
  | some r =>
    obtain ⟨o1, s1⟩ := r
    obtain ⟨p1, q1⟩ := hm s o1 s1 hms
    rw [hms] at h
    have caught : ∀ {d d' : DSt} {e : Kind} {out : Bytes} {o : Out} {s' : St}, l.tried = .tail → Fault F e d'.writer out → out <+: s'.out →
        Ev (fun n => m' n d = some (.val (.err e), d')) → Res F l o s' (fun n => (m' n).bind (k' n) d) := by
      intro d d' e out o s' hl hf hp he
      obtain ⟨d2, e1, e2⟩ := hc e d' out hf
      refine .ret (Level.tried_tail hl) ?_ ((he.and e2).mono fun n h => by simp only [DM.bind, h.1]; exact h.2)
      rw [e1]
      exact hf.mono hp
    cases o1 with
    | val v =>
      obtain ⟨p2, q2⟩ := hk v s1 o s' h
      refine ⟨p1.trans p2, fun d hd => ?_⟩
      cases q1 d hd with
      | same _ hr he => exact (q2 _ hr).congr (he.mono fun n h => by simp only [DM.bind, h])
      | ret hl hf he => exact .ret (Level.tried_pure hl) (hf.mono p2) (he.mono fun n h => by simp only [DM.bind, h])
      | val hl hf he => exact caught hl hf p2 he
    | brk =>
      cases h
      refine ⟨p1, fun d hd => ?_⟩
      cases q1 d hd with
      | same hn hr he => exact .same (by first | exact hn | nofun) hr (he.mono fun n h => by simp only [DM.bind, h])
      | ret hl hf he => exact .ret (Level.tried_pure hl) hf (he.mono fun n h => by simp only [DM.bind, h])
      | val hl hf he => exact caught hl hf (List.prefix_refl _) he
    | ret v =>
      cases h
      refine ⟨p1, fun d hd => ?_⟩
      cases q1 d hd with
      | same hn hr he => exact .same (by first | exact hn | nofun) hr (he.mono fun n h => by simp only [DM.bind, h])
      | ret hl hf he => exact .ret (Level.tried_pure hl) hf (he.mono fun n h => by simp only [DM.bind, h])
      | val hl hf he => exact caught hl hf (List.prefix_refl _) he
    | fail e =>
      cases h
      refine ⟨p1, fun d hd => ?_⟩
      cases q1 d hd with
      | same hn hr he => exact .same (by first | exact hn | nofun) hr (he.mono fun n h => by simp only [DM.bind, h])
      | @fail _ _ _ d' hn he => exact .fail (d' := d') hn (he.mono fun n h => by simp only [DM.bind, h])
      | hang he => exact .hang (he.mono fun n h => by simp only [DM.bind, h])
      | ret hl hf he => exact .ret (Level.tried_pure hl) hf (he.mono fun n h => by simp only [DM.bind, h])
      | val hl hf he => exact caught hl hf (List.prefix_refl _) he

theorem Sim.scoped {F : Faults} {l : Level} {m : M} {m' : Nat → DM} {bs : List (Var × Val)} (hm : Sim F l m m') :
    Sim F l (m.scoped bs) (fun n => (m' n).scoped bs) := by
  intro s o s' h
  unfold M.scoped at h
  cases hms : m { s with env := bs ++ s.env } with
  | none => rw [hms] at h; cases h
  | some r =>
    obtain ⟨o1, s1⟩ := r
    obtain ⟨p1, q1⟩ := hm _ o1 s1 hms
    rw [hms] at h
    cases h
    refine ⟨p1, fun d hd => ?_⟩
    have hd' : Rel F { s with env := bs ++ s.env } { d with env := bs ++ d.env } :=
      ⟨by simp only [hd.env], hd.depth, hd.written, hd.writer, hd.readers⟩
    cases q1 _ hd' with
    | @same _ _ _ d' hn hr he =>
      refine .same (d' := { d' with env := d'.env.drop bs.length }) hn ?_ (he.mono fun n h => by simp only [DM.scoped, h, Option.map_some])
      exact ⟨by simp only [hr.env], hr.depth, hr.written, hr.writer, hr.readers⟩
    | @fail _ _ _ d' hn he => exact .fail hn (d' := { d' with env := d'.env.drop bs.length }) (he.mono fun n h => by simp only [DM.scoped, h, Option.map_some])
    | hang he => exact .hang (he.mono fun n h => by simp only [DM.scoped, h, Option.map_none])
    | @ret _ _ _ d' k hl hf he =>
      exact .ret (d' := { d' with env := d'.env.drop bs.length }) hl hf (he.mono fun n h => by simp only [DM.scoped, h, Option.map_some])
    | @val _ _ _ d' k hl hf he =>
      exact .val (d' := { d' with env := d'.env.drop bs.length }) hl hf (he.mono fun n h => by simp only [DM.scoped, h, Option.map_some])

theorem Sim.closure {F : Faults} {l : Level} {m : M} {m' : Nat → DM} {bs : List (Var × Val)} (hm : Sim F .pure m m') :
    Sim F l (m.closure bs) (fun n => (m' n).closure bs) := by
  intro s o s' h
  unfold M.closure at h
  cases hms : m.scoped bs s with
  | none => rw [hms] at h; cases h
  | some r =>
    obtain ⟨o1, s1⟩ := r
    obtain ⟨p1, q1⟩ := hm.scoped s o1 s1 hms
    rw [hms] at h
    cases o1 with
    | val v =>
      cases h
      refine ⟨p1, fun d hd => ?_⟩
      cases q1 d hd with
      | same hn hr he => exact .same (by first | exact hn | nofun) hr (he.mono fun n h => by simp only [DM.closure, h])
      | ret hl => exact absurd rfl hl
      | val hl => cases hl
    | brk => cases h
    | ret v =>
      cases h
      refine ⟨p1, fun d hd => ?_⟩
      cases q1 d hd with
      | same hn hr he => exact .same (by first | exact hn | nofun) hr (he.mono fun n h => by simp only [DM.closure, h])
      | ret hl => exact absurd rfl hl
      | val hl => cases hl
    | fail e =>
      cases h
      refine ⟨p1, fun d hd => ?_⟩
      cases q1 d hd with
      | same hn hr he => exact .same (by first | exact hn | nofun) hr (he.mono fun n h => by simp only [DM.closure, h])
      | @fail _ _ _ d' hn he => exact .fail (d' := d') hn (he.mono fun n h => by simp only [DM.closure, h])
      | hang he => exact .hang (he.mono fun n h => by simp only [DM.closure, h])
      | ret hl => exact absurd rfl hl
      | val hl => cases hl

/-- The level of a function. -/
theorem Sim.frame {F : Faults} {l : Level} {m : M} {m' : Nat → DM} {bs : List (Var × Val)} (hm : Sim F l m m') :
    Sim F l.tried (m.frame bs) (fun n => (m' n).frame bs) := by
  intro s o s' h
  unfold M.frame at h
  cases hms : m { s with env := bs } with
  | none => rw [hms] at h; cases h
  | some r =>
    obtain ⟨o1, s1⟩ := r
    obtain ⟨p1, q1⟩ := hm _ o1 s1 hms
    rw [hms] at h
    have tl : l ≠ .pure → l.tried = .tail := by cases l <;> simp [Level.tried]
    have rel : ∀ {d d' : DSt}, Rel F s d → Rel F s1 d' → Rel F { s1 with env := s.env } { d' with env := d.env } := fun hd hr =>
      ⟨hd.env, hr.depth, hr.written, hr.writer, hr.readers⟩
    have start : ∀ {d : DSt}, Rel F s d → Rel F { s with env := bs } { d with env := bs } := fun hd =>
      ⟨rfl, hd.depth, hd.written, hd.writer, hd.readers⟩
    cases o1 with
    | brk => cases h
    | val v =>
      cases h
      refine ⟨p1, fun d hd => ?_⟩
      cases q1 _ (start hd) with
      | same hn hr he => exact .same (by first | exact hn | nofun) (rel hd hr) (he.mono fun n h => by simp only [DM.frame, h])
      | @ret _ _ _ d' k hl hf he => exact .val (d' := { d' with env := d.env }) (tl hl) hf (he.mono fun n h => by simp only [DM.frame, h])
      | @val _ _ _ d' k hl hf he =>
        exact .val (d' := { d' with env := d.env }) (tl (by rw [hl]; nofun)) hf (he.mono fun n h => by simp only [DM.frame, h])
    | ret v =>
      cases h
      refine ⟨p1, fun d hd => ?_⟩
      cases q1 _ (start hd) with
      | same hn hr he => exact .same (by first | exact hn | nofun) (rel hd hr) (he.mono fun n h => by simp only [DM.frame, h])
      | @ret _ _ _ d' k hl hf he => exact .val (d' := { d' with env := d.env }) (tl hl) hf (he.mono fun n h => by simp only [DM.frame, h])
      | @val _ _ _ d' k hl hf he =>
        exact .val (d' := { d' with env := d.env }) (tl (by rw [hl]; nofun)) hf (he.mono fun n h => by simp only [DM.frame, h])
    | fail e =>
      cases h
      refine ⟨p1, fun d hd => ?_⟩
      cases q1 _ (start hd) with
      | same hn hr he => exact .same (by first | exact hn | nofun) (rel hd hr) (he.mono fun n h => by simp only [DM.frame, h])
      | @fail _ _ _ d' hn he => exact .fail hn (d' := { d' with env := d.env }) (he.mono fun n h => by simp only [DM.frame, h])
      | hang he => exact .hang (he.mono fun n h => by simp only [DM.frame, h])
      | @ret _ _ _ d' k hl hf he => exact .val (d' := { d' with env := d.env }) (tl hl) hf (he.mono fun n h => by simp only [DM.frame, h])
      | @val _ _ _ d' k hl hf he =>
        exact .val (d' := { d' with env := d.env }) (tl (by rw [hl]; nofun)) hf (he.mono fun n h => by simp only [DM.frame, h])

/-! ### Loops -/

/-- `x`, then `y` for values; `break` ends with `()`. -/
theorem Sim.round {F : Faults} {l : Level} {m : M} {m' : Nat → DM} {k : M} {k' : Nat → DM} (hm : Sim F l.arg m m') (hk : Sim F l k k') :
    Sim F l (fun s => match m s with
      | some (.val _, s) => k s
      | some (.brk, s) => some (.val .unit, s)
      | r => r) (fun n s => match m' n s with
      | some (.val _, s) => k' n s
      | some (.brk, s) => some (.val .unit, s)
      | r => r) := by
  intro s o s' h
  dsimp only at h
  cases hms : m s with
  | none => rw [hms] at h; cases h
  | some r =>
    obtain ⟨o1, s1⟩ := r
    obtain ⟨p1, q1⟩ := hm s o1 s1 hms
    rw [hms] at h
    cases o1 with
    | val v =>
      obtain ⟨p2, q2⟩ := hk s1 o s' h
      refine ⟨p1.trans p2, fun d hd => ?_⟩
      cases q1 d hd with
      | same _ hr he => exact (q2 _ hr).congr (he.mono fun n h => by simp only [h])
      | ret hl hf he => exact .ret (Level.arg_pure hl) (hf.mono p2) (he.mono fun n h => by simp only [h])
      | val hl => exact (Level.arg_tail hl).elim
    | brk =>
      cases h
      refine ⟨p1, fun d hd => ?_⟩
      cases q1 d hd with
      | same hn hr he => exact .same (by first | exact hn | nofun) hr (he.mono fun n h => by simp only [h])
      | ret hl hf he => exact .ret (Level.arg_pure hl) hf (he.mono fun n h => by simp only [h])
      | val hl => exact (Level.arg_tail hl).elim
    | ret v =>
      cases h
      refine ⟨p1, fun d hd => ?_⟩
      cases q1 d hd with
      | same hn hr he => exact .same (by first | exact hn | nofun) hr (he.mono fun n h => by simp only [h])
      | ret hl hf he => exact .ret (Level.arg_pure hl) hf (he.mono fun n h => by simp only [h])
      | val hl => exact (Level.arg_tail hl).elim
    | fail e =>
      cases h
      refine ⟨p1, fun d hd => ?_⟩
      cases q1 d hd with
      | same hn hr he => exact .same (by first | exact hn | nofun) hr (he.mono fun n h => by simp only [h])
      | @fail _ _ _ d' hn he => exact .fail (d' := d') hn (he.mono fun n h => by simp only [h])
      | hang he => exact .hang (he.mono fun n h => by simp only [h])
      | ret hl hf he => exact .ret (Level.arg_pure hl) hf (he.mono fun n h => by simp only [h])
      | val hl => exact (Level.arg_tail hl).elim

theorem Sim.congr {F : Faults} {l : Level} {m : M} {m' m'' : Nat → DM} (h : Sim F l m m') (e : Ev (fun n => m'' n = m' n)) : Sim F l m m'' :=
  fun s o s' h1 => ⟨(h s o s' h1).1, fun d hd => ((h s o s' h1).2 d hd).congr (e.mono fun n h => by rw [h])⟩

theorem Sim.iterate {F : Faults} {l : Level} {m : M} {m' : Nat → DM} (hm : Sim F l.arg m m') : (k : Nat) → (g : Nat → Nat) → (∀ N, Ev (fun n => N ≤ g n)) →
    Sim F l (iterate m k) (fun n => iterateD (m' n) (g n))
  | 0, _, _ => .none
  | k + 1, g, hg => by
    have ih := Sim.iterate hm k (fun n => g n - 1) (fun N => (hg (N + 1)).mono fun n h => by omega)
    refine (Sim.round hm ih).congr ((hg 1).mono fun n h => ?_)
    obtain ⟨j, hj⟩ : ∃ j, g n = j + 1 := ⟨g n - 1, by omega⟩
    simp only [hj, Nat.add_sub_cancel]
    rfl

theorem Sim.forEach {F : Faults} {l : Level} {f : Val → M} {f' : Nat → Val → DM} (hf : ∀ v, Sim F l.arg (f v) (fun n => f' n v)) : (vs : List Val) →
    Sim F l (forEach f vs) (fun n => forEachD (f' n) vs)
  | [] => .pure
  | v :: vs => Sim.round (hf v) (Sim.forEach hf vs)

theorem Sim.mapEach {F : Faults} {l : Level} {f : Val → M} {f' : Nat → Val → DM} (hf : ∀ l v, Sim F l (f v) (fun n => f' n v)) : (vs : List Val) →
    ∀ l, Sim F l (mapEach f vs) (fun n => mapEachD (f' n) vs)
  | [], _ => .pure
  | v :: vs, l => (hf _ v).bind fun x => (Sim.mapEach (l := l) hf vs _).bind fun y => by
    cases y <;> first | exact .pure | exact .none

theorem Sim.foldEach {F : Faults} {f : Val → Val → M} {f' : Nat → Val → Val → DM} (hf : ∀ l x v, Sim F l (f x v) (fun n => f' n x v)) : (vs : List Val) →
    ∀ l x, Sim F l (foldEach f x vs) (fun n => foldEachD (f' n) x vs)
  | [], _, _ => .pure
  | v :: vs, l, x => (hf _ x v).bind fun y => Sim.foldEach hf vs l y

end Typical.Gen
