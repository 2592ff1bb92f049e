import Verif.Gen.DevOk
import Verif.Props.GeneratedRust
import Verif.Props.RustRuntime
import Verif.Props.Io

/-!
# Property C84: the code which is generated for a declaration, on any readers and writers

Like C67-C69, but for executions (`RunsD`, `HangsD`; `Verif.Gen.DevSem`) which are closer to what the machine does: the functions at the top of the generated file
are executed, readers and writers are devices which deliver or accept bytes in pieces and may fail, and arithmetic which overflows panics or wraps around, depending
on the build. `usize` has 64 bits. The schemas can be of any size, types nested to any depth, and devices can do anything which their interface allows.
-/

namespace Typical

open Gen

/-- The outcome of an execution is unique. -/
theorem C84_unique {t : Rt.Target} {lim : Nat} {P : Prog} {self : TypeId} {e : Ex} {d : DSt} {r : Out × DSt} (h : RunsD t lim P self e d r) :
    (∀ r', RunsD t lim P self e d r' → r = r') ∧ ¬ HangsD t lim P self e d := by
  obtain ⟨N, h⟩ := h
  constructor
  · rintro r' ⟨N', h'⟩
    have h1 := h (max N N') (by omega)
    rw [h' (max N N') (by omega)] at h1
    exact (Option.some.inj h1).symm
  · rintro ⟨N', h'⟩
    have h1 := h (max N N') (by omega)
    rw [h' (max N N') (by omega)] at h1
    cases h1

/-! ### Functions return with values -/

theorem callFnD_ret {t : Rt.Target} {lim : Nat} {P : Prog} {n : Nat} {self : TypeId} {f : Fn} {vs : List Val} {d d' : DSt} {v : Val} :
    callFnD t lim P n self f vs d ≠ some (.ret v, d') := by
  cases n with
  | zero => nofun
  | succ n =>
    intro h
    simp only [callFnD] at h
    cases hP : P self f with
    | none => rw [hP] at h; cases h
    | some e =>
      rw [hP] at h
      simp only [DM.frame] at h
      generalize evalInD t lim (callFnD t lim P n) n self e { d with env := f.params.zip vs } = x at h
      cases x with
      | none => cases h
      | some r =>
        obtain ⟨o, d1⟩ := r
        cases o <;> cases h

theorem traitDeserialize_ret {t : Rt.Target} {lim : Nat} {P : Prog} {n : Nat} {self : TypeId} {d d' : DSt} {v : Val} :
    evalInD t lim (callFnD t lim P n) n self traitDeserialize d ≠ some (.ret v, d') := by
  intro h
  simp only [evalInD, traitDeserialize, Ex.evalD, DM.bind, DM.get] at h
  split at h
  · exact callFnD_ret h
  · rename_i h1
    cases hl : lookup .reader d.env with
    | none => rw [hl] at h; cases h
    | some x => exact h1 _ _ (by rw [hl]; rfl)

theorem method_ret {t : Rt.Target} {lim : Nat} {P : Prog} {n : Nat} {m : Method} {x : Val} {vs : List Val} {d d' : DSt} {v : Val}
    (hm : m = .atlas ∨ m = .serializeWithAtlas) : m.runD (callFnD t lim P n) x vs d ≠ some (.ret v, d') := by
  intro h
  unfold Method.runD at h
  split at h <;> first | (rcases hm with hm | hm <;> cases hm <;> done) | exact callFnD_ret h | cases h

theorem traitSerialize_ret {t : Rt.Target} {lim : Nat} {P : Prog} {n : Nat} {self : TypeId} {d d' : DSt} {v : Val} :
    evalInD t lim (callFnD t lim P n) n self traitSerialize d ≠ some (.ret v, d') := by
  have bind : ∀ {m : DM} {k : Val → DM}, (∀ d v d', m d ≠ some (.ret v, d')) → (∀ x d v d', k x d ≠ some (.ret v, d')) →
      ∀ d v d', m.bind k d ≠ some (.ret v, d') := by
    intro m k hm hk d v d' h
    unfold DM.bind at h
    split at h
    · exact hk _ _ _ _ h
    · exact hm _ _ _ h
  have get : ∀ {x : Var} d v d', DM.get x d ≠ some (.ret v, d') := by
    intro x d v d' h
    unfold DM.get at h
    cases hl : lookup x d.env with
    | none => rw [hl] at h; cases h
    | some y => rw [hl] at h; cases h
  have within : ∀ {m : DM} {bs : List (Var × Val)}, (∀ d v d', m d ≠ some (.ret v, d')) → ∀ d v d', m.scoped bs d ≠ some (.ret v, d') := by
    intro m bs hm d v d' h
    unfold DM.scoped at h
    cases hx : m { d with env := bs ++ d.env } with
    | none => rw [hx] at h; cases h
    | some r =>
      obtain ⟨o, d1⟩ := r
      rw [hx] at h
      cases h
      exact hm _ _ _ hx
  simp only [evalInD, traitSerialize, Ex.evalD, Args.evalD]
  refine bind (bind get fun x d v d' => method_ret (.inl rfl)) (fun x => within (bind get fun y => bind get fun z => bind get fun w d v d' =>
    method_ret (.inr rfl))) d v d'

/-! ### Reading -/

theorem Err.fnOut_eq (e : Err) : e.fnOut = (match e with
    | .panic => .fail .panic
    | .hang => .fail .hang
    | .fuel => .fail .fuel
    | .eof => .val (.err .unexpectedEof)
    | .invalid => .val (.err .invalidData)) := by cases e <;> rfl

/-- The generated `deserialize` on a device, given what it does with the bytes `s`. -/
theorem deserialize_device {T : CharTable} {S : Schemas} (hA : Accepted T S) {k : List Str × Str} {c : CTy} (hc : S.Denotes k c)
    {ns : Namespace} {f : Schema} {d : Declaration} (hd : S.Declares k ns f d) {t : Rt.Target} (ht : t.bits = 64) (lim : Nat) {F : Faults}
    (hF : ¬ F.reads .unexpectedEof) (hW : ∀ k, ¬ F.writes k) {r : Reader} {u s : Bytes} (hr : Rest F r u) (hv : view r u = s) (hu : F.short → view r u = u)
    (out : Bytes) :
    (∃ e d', F.reads e ∧ RunsD t lim (program T S) (generatedType T ns d .inn) traitDeserialize ⟨[(.reader, .reader 1)], 1, r, vector out⟩ (.val (.err e), d')) ∨
    (∃ m v d', deserialize lim c s = .ok m ∧ Holds T S .inn k v (c.tree m) ∧ d'.writer.written = out ∧ Rds F [[]] d'.reader ∧
      RunsD t lim (program T S) (generatedType T ns d .inn) traitDeserialize ⟨[(.reader, .reader 1)], 1, r, vector out⟩ (.val (.ok v), d')) ∨
    (deserialize lim c s = .error .hang ∧
      HangsD t lim (program T S) (generatedType T ns d .inn) traitDeserialize ⟨[(.reader, .reader 1)], 1, r, vector out⟩) ∨
    (∃ e d', deserialize lim c s = .error e ∧ e ≠ .hang ∧
      RunsD t lim (program T S) (generatedType T ns d .inn) traitDeserialize ⟨[(.reader, .reader 1)], 1, r, vector out⟩ (e.fnOut, d')) := by
  have hrel : Rel F ⟨[(.reader, .reader 1)], out, [s]⟩ ⟨[(.reader, .reader 1)], 1, r, vector out⟩ :=
    ⟨rfl, rfl, rfl, ⟨nofun, nofun⟩, ⟨u, hr, hv, hu⟩⟩
  have bad : ∀ {e : Kind} {w : Writer} {o : Bytes}, Fault F e w o → F.reads e := fun h => h.2.resolve_right fun h => hW _ h.1
  have key := fun {o : Out} {s' : St} (h : Runs lim (program T S) (generatedType T ns d .inn) traitDeserialize ⟨[(.reader, .reader 1)], out, [s]⟩ (o, s')) =>
    runs_sim (cat := true) ht (fun _ => ⟨hF, hW _⟩) (program_ok T S) traitDeserialize_ok h hrel
  have noRet : ∀ {e : Kind} {d' : DSt}, ¬ Ev (fun n => evalInD t lim (callFnD t lim (program T S) n) n (generatedType T ns d .inn) traitDeserialize
      ⟨[(.reader, .reader 1)], 1, r, vector out⟩ = some (.ret (.err e), d')) := fun ⟨N, h⟩ => traitDeserialize_ret (h N (Nat.le_refl _))
  have h68 := C68_deserialize hA hc hd lim s out
  cases hm : deserialize lim c s with
  | ok m =>
    rw [hm] at h68
    obtain ⟨v, hv', h⟩ := h68
    cases key h with
    | same _ h1 h2 => exact .inr (.inl ⟨m, v, _, rfl, hv', h1.written, h1.readers, h2⟩)
    | ret _ _ h => exact (noRet h).elim
    | val _ hf h => exact .inl ⟨_, _, bad hf, h⟩
  | error e =>
    rw [hm] at h68
    obtain ⟨s', h⟩ := h68
    have h : Runs lim (program T S) (generatedType T ns d .inn) traitDeserialize ⟨[(.reader, .reader 1)], out, [s]⟩ (e.fnOut, s') := by cases e <;> exact h
    have h := key h
    generalize ho : e.fnOut = o at h
    cases h with
    | same hn h1 h2 =>
      refine .inr (.inr (.inr ⟨e, _, rfl, ?_, ho ▸ h2⟩))
      rintro rfl
      exact hn ho.symm
    | fail hn h2 =>
      refine .inr (.inr (.inr ⟨e, _, rfl, ?_, ho ▸ h2⟩))
      rintro rfl
      cases ho
      exact hn rfl
    | hang h2 =>
      cases e <;> cases ho
      exact .inr (.inr (.inl ⟨rfl, h2⟩))
    | ret _ _ h => exact (noRet h).elim
    | val _ hf h => exact .inl ⟨_, _, bad hf, h⟩

/-- **C84 (reading).** Let a reader deliver the bytes `s`, in any pieces and without failing. The generated `deserialize` function behaves like the decoder of the
wire type on `s`, in builds with and without overflow checks: it returns `Ok(v)` where `v` is a value of the `In` type with the decoded content, and the reader is
at its end; or it returns the error, panics or does not end, as the decoder does. -/
theorem C84_deserialize {T : CharTable} {S : Schemas} (hA : Accepted T S) {k : List Str × Str} {c : CTy} (hc : S.Denotes k c)
    {ns : Namespace} {f : Schema} {d : Declaration} (hd : S.Declares k ns f d) {t : Rt.Target} (ht : t.bits = 64) (lim : Nat)
    {r : Reader} {s : Bytes} (hs : Delivers r s) (out : Bytes) :
    match deserialize lim c s with
    | .ok m => ∃ v d', Holds T S .inn k v (c.tree m) ∧
      RunsD t lim (program T S) (generatedType T ns d .inn) traitDeserialize ⟨[(.reader, .reader 1)], 1, r, vector out⟩ (.val (.ok v), d') ∧
      Delivers d'.reader [] ∧ d'.writer.written = out
    | .error .hang => HangsD t lim (program T S) (generatedType T ns d .inn) traitDeserialize ⟨[(.reader, .reader 1)], 1, r, vector out⟩
    | .error e => ∃ d', RunsD t lim (program T S) (generatedType T ns d .inn) traitDeserialize ⟨[(.reader, .reader 1)], 1, r, vector out⟩
        (match e with
          | .panic => .fail .panic
          | .hang => .fail .hang
          | .fuel => .fail .fuel
          | .eof => .val (.err .unexpectedEof)
          | .invalid => .val (.err .invalidData), d') := by
  obtain ⟨u, hu, hv⟩ := (delivers_iff r).mp hs
  rcases deserialize_device hA hc hd ht lim (F := ⟨fun _ => False, fun _ => False, False⟩) (fun h => h) (fun _ h => h) ⟨hu, nofun⟩ hv nofun out with
    ⟨_, _, h, _⟩ | ⟨m, v, d', h1, h2, h3, h4, h5⟩ | ⟨h1, h2⟩ | ⟨e, d', h1, h2, h3⟩
  · exact h.elim
  · rw [h1]
    obtain ⟨u', h6, h7⟩ := h4
    exact ⟨v, d', h2, h5, (delivers_iff _).mpr ⟨u', h6.rep, h7.1⟩, h3⟩
  · rw [h1]
    exact h2
  · rw [h1]
    rw [Err.fnOut_eq] at h3
    cases e with
    | hang => exact (h2 rfl).elim
    | _ => exact ⟨d', h3⟩

/-- **C84 (failing readers).** Let a reader deliver some bytes and then fail with an error of a kind other than `UnexpectedEof` and `Interrupted`. The generated
`deserialize` function does not return a message: it returns that error, or there is a failure of the decoder which is certain from the bytes alone, whatever might
have followed, and the function does the same. -/
theorem C84_failing_readers {T : CharTable} {S : Schemas} (hA : Accepted T S) {k : List Str × Str} {c : CTy} (hc : S.Denotes k c)
    {ns : Namespace} {f : Schema} {d : Declaration} (hd : S.Declares k ns f d) {t : Rt.Target} (ht : t.bits = 64) (lim : Nat)
    {events : List Event} (later : List Event) (he : ∀ e ∈ events, e.isData = true) {e : Kind} (h1 : e ≠ .unexpectedEof) (h2 : e ≠ .interrupted) (out : Bytes) :
    (∃ d', RunsD t lim (program T S) (generatedType T ns d .inn) traitDeserialize
      ⟨[(.reader, .reader 1)], 1, deviceOf (events ++ .fail e :: later), vector out⟩ (.val (.err e), d')) ∨
    ((∀ rest, deserialize lim c (delivered events ++ rest) = .error .hang) ∧
      HangsD t lim (program T S) (generatedType T ns d .inn) traitDeserialize
        ⟨[(.reader, .reader 1)], 1, deviceOf (events ++ .fail e :: later), vector out⟩) ∨
    ∃ x : Err, (∀ rest, deserialize lim c (delivered events ++ rest) = .error x) ∧ ∃ d',
      RunsD t lim (program T S) (generatedType T ns d .inn) traitDeserialize
        ⟨[(.reader, .reader 1)], 1, deviceOf (events ++ .fail e :: later), vector out⟩
        (match x with
          | .panic => .fail .panic
          | .hang => .fail .hang
          | .fuel => .fail .fuel
          | .eof => .val (.err .unexpectedEof)
          | .invalid => .val (.err .invalidData), d') := by
  have hr : ∀ rest, Rep (· = e) (deviceOf (events ++ .fail e :: later)) (delivered events ++ rest) := fun rest =>
    ⟨_, rfl, represents_append he ⟨rfl, fun h => absurd h h2⟩⟩
  by_cases hh : ∃ d', RunsD t lim (program T S) (generatedType T ns d .inn) traitDeserialize
      ⟨[(.reader, .reader 1)], 1, deviceOf (events ++ .fail e :: later), vector out⟩ (.val (.err e), d')
  · exact .inl hh
  right
  -- a long continuation cannot have been read
  have long := deserialize_device hA hc hd ht lim (F := ⟨(· = e), fun _ => False, True⟩) (fun h => h1 h.symm) (fun _ h => h)
    (r := deviceOf (events ++ .fail e :: later))
    ⟨hr (List.replicate ((deviceOf (events ++ .fail e :: later)).calls + 1) 0), fun _ => by
      rw [List.length_append, List.length_replicate]; omega⟩ rfl (fun _ => rfl) out
  have any := fun rest => deserialize_device hA hc hd ht lim (F := ⟨(· = e), fun _ => False, False⟩) (fun h => h1 h.symm) (fun _ h => h)
    (r := deviceOf (events ++ .fail e :: later)) ⟨hr rest, nofun⟩ rfl nofun out
  rcases long with ⟨_, d', rfl, h⟩ | ⟨m, v, d', -, -, -, h4, -⟩ | ⟨-, h⟩ | ⟨x, d', -, hx, h⟩
  · exact absurd ⟨d', h⟩ hh
  · obtain ⟨u, h5, h6⟩ := h4
    have := h5.short trivial
    have h7 : u = [] := (h6.2 trivial).symm.trans h6.1
    rw [h7] at this
    cases this
  · left
    refine ⟨fun rest => ?_, h⟩
    rcases any rest with ⟨_, d', rfl, h'⟩ | ⟨m, v, d', -, -, -, -, h'⟩ | ⟨h', -⟩ | ⟨x, d', -, -, h'⟩
    · exact absurd ⟨d', h'⟩ hh
    · exact ((C84_unique h').2 h).elim
    · exact h'
    · exact ((C84_unique h').2 h).elim
  · right
    refine ⟨x, fun rest => ?_, d', ?_⟩
    · rcases any rest with ⟨_, d', rfl, h'⟩ | ⟨m, v, d', -, -, -, -, h'⟩ | ⟨-, h'⟩ | ⟨y, d', hy, -, h'⟩
      · exact absurd ⟨d', h'⟩ hh
      · have := (C84_unique h).1 _ h'
        cases x <;> cases this
      · exact ((C84_unique h).2 h').elim
      · have := (C84_unique h).1 _ h'
        have hy' : deserialize lim c (delivered events ++ rest) = .error y := hy
        rw [hy']
        cases x <;> cases y <;> first | rfl | cases this
    · rw [Err.fnOut_eq] at h
      cases x <;> exact h

/-! ### Writing -/

/-- **C84 (writing).** Let `v` be a value of the `Out` type which is generated for a declaration, and `t` its content, whose documented layout has less than
`2 ^ 64` bytes. In builds with and without overflow checks, the generated `size` method returns the number of bytes of that layout. With any writer, which accepts
bytes in any pieces and may fail, the generated `serialize` method either writes that layout and returns `Ok(())`; or it returns an error of the writer (or
`WriteZero`, if the writer has accepted nothing), and a proper prefix of the layout has been written. -/
theorem C84_serialize {T : CharTable} {S : Schemas} (hA : Accepted T S) {k : List Str × Str} {c : CTy} (hc : S.Denotes k c) {v : Val} {t : Tree}
    (hv : Holds T S .out k v t) (hsz : (t.wire false).length < 2 ^ 64) {target : Rt.Target} (ht : target.bits = 64) (lim : Nat) (self : TypeId)
    (r : Reader) (events : List WEvent) :
    (∃ d', RunsD target lim (program T S) self traitSize ⟨[(.self, v)], 0, r, writerOf events⟩ (.val (.usize (t.wire false).length), d') ∧
      d'.writer.written = []) ∧
    ((∃ d', RunsD target lim (program T S) self traitSerialize ⟨[(.self, v), (.writer, .writer)], 0, r, writerOf events⟩ (.val (.ok .unit), d') ∧
      d'.writer.written = t.wire false) ∨
    ∃ e d', (e ≠ .interrupted ∧ .fail e ∈ events ∨ e = .writeZero ∧ .accept 0 ∈ events) ∧
      RunsD target lim (program T S) self traitSerialize ⟨[(.self, v), (.writer, .writer)], 0, r, writerOf events⟩ (.val (.err e), d') ∧
      d'.writer.written <+: t.wire false ∧ d'.writer.written ≠ t.wire false) := by
  let F : Faults := ⟨fun _ => False, fun e => e ≠ .interrupted ∧ .fail e ∈ events ∨ e = .writeZero ∧ .accept 0 ∈ events, False⟩
  have hrel : ∀ env, Rel F ⟨env, [], []⟩ ⟨env, 0, r, writerOf events⟩ := fun env =>
    ⟨rfl, rfl, rfl, ⟨fun e h1 h2 => .inl ⟨h2, h1⟩, fun h => .inr ⟨rfl, h⟩⟩, trivial⟩
  obtain ⟨h1, h2⟩ := C67_serialize hA hc hv hsz lim self [] []
  constructor
  · cases runs_sim (cat := false) ht nofun (program_ok T S) traitSize_ok h1 (hrel _) with
    | same _ h3 h4 => exact ⟨_, h4, h3.written⟩
    | ret h => exact absurd rfl h
    | val h => cases h
  · cases runs_sim (cat := false) ht nofun (program_ok T S) traitSerialize_ok h2 (hrel _) with
    | same _ h3 h4 => exact .inl ⟨_, h4, h3.written⟩
    | ret _ _ h => exact (traitSerialize_ret (h.choose_spec _ (Nat.le_refl _))).elim
    | val _ hf h =>
      rcases hf.2 with h3 | ⟨h3, h4⟩
      · exact h3.elim
      · exact .inr ⟨_, _, h3, h, hf.1, h4⟩

/-- **C84 (round trip).** If the generated `serialize` method has returned `Ok(())` for a value of the `Out` type, with any writer, and any reader delivers what has
been written, then the generated `deserialize` function returns the value to which the generated conversion maps the value which has been written. The two programs
may have been built with different settings. -/
theorem C84_round_trip {T : CharTable} {S : Schemas} (hA : Accepted T S) {k : List Str × Str} {c : CTy} (hc : S.Denotes k c)
    {ns : Namespace} {f : Schema} {d : Declaration} (hd : S.Declares k ns f d) {v : Val} {t : Tree} (hv : Holds T S .out k v t)
    {lim : Nat} (hlim : lim < 2 ^ 64) (hsz : 8 * (t.wire false).length ≤ lim) {target target' : Rt.Target} (ht : target.bits = 64) (ht' : target'.bits = 64)
    (self : TypeId) (r : Reader) (events : List WEvent) {d1 : DSt}
    (hs : RunsD target lim (program T S) self traitSerialize ⟨[(.self, v), (.writer, .writer)], 0, r, writerOf events⟩ (.val (.ok .unit), d1))
    {r' : Reader} (hr : Delivers r' d1.writer.written) :
    ∃ v' d2 d3, Holds T S .inn k v' (c.view t) ∧
      RunsD target lim (program T S) self intoCall ⟨[(.message, v)], 0, r, vector []⟩ (.val v', d2) ∧
      RunsD target' lim (program T S) (generatedType T ns d .inn) traitDeserialize ⟨[(.reader, .reader 1)], 1, r', vector []⟩ (.val (.ok v'), d3) ∧
      Delivers d3.reader [] := by
  have hw : d1.writer.written = t.wire false := by
    rcases (C84_serialize hA hc hv (by omega) ht lim self r events).2 with ⟨d', h1, h2⟩ | ⟨e, d', -, h1, -⟩
    · cases (C84_unique hs).1 _ h1
      exact h2
    · cases (C84_unique hs).1 _ h1
  rw [hw] at hr
  obtain ⟨v', h1, h2, h3⟩ := C69_round_trip hA hc hd hv hlim hsz self (C67_serialize hA hc hv (by omega) lim self [] []).2
  have hrel : Rel ⟨fun _ => False, fun _ => False, False⟩ ⟨[(.message, v)], [], []⟩ ⟨[(.message, v)], 0, r, vector []⟩ :=
    ⟨rfl, rfl, rfl, ⟨nofun, nofun⟩, trivial⟩
  have hok : intoCall.Ok false .pure := by unfold intoCall; okay []
  obtain ⟨d2, h4⟩ : ∃ d2, RunsD target lim (program T S) self intoCall ⟨[(.message, v)], 0, r, vector []⟩ (.val v', d2) := by
    cases runs_sim (cat := false) ht nofun (program_ok T S) hok h2 hrel with
    | same _ _ h => exact ⟨_, h⟩
    | ret h => exact absurd rfl h
    | val h => cases h
  obtain ⟨u, hu, hv2⟩ := (delivers_iff r').mp hr
  have hrel' : Rel ⟨fun _ => False, fun _ => False, False⟩ ⟨[(.reader, .reader 1)], [], [t.wire false]⟩ ⟨[(.reader, .reader 1)], 1, r', vector []⟩ :=
    ⟨rfl, rfl, rfl, ⟨nofun, nofun⟩, ⟨u, ⟨hu, nofun⟩, hv2, nofun⟩⟩
  rw [List.nil_append] at h3
  cases runs_sim (cat := true) ht' (fun _ => ⟨fun h => h, fun h => h⟩) (program_ok T S) traitDeserialize_ok h3 hrel' with
  | same _ h5 h6 =>
    obtain ⟨u', h7, h8⟩ := h5.readers
    exact ⟨v', d2, _, h1, h4, h6, (delivers_iff _).mpr ⟨u', h7.rep, h8.1⟩⟩
  | ret _ hf => exact (hf.2.elim id And.left).elim
  | val _ hf => exact (hf.2.elim id And.left).elim

/-! ### Examples -/

/-- A value of a generated type, written to a writer which accepts one byte, is interrupted, and then accepts everything, in a build with overflow checks; and read
by a build without, from a reader which delivers one byte in each call. -/
example : ∃ v' d1 d2 d3,
    RunsD ⟨true, 64⟩ 1000 (program asciiTable exampleSchemas) ([], []) traitSerialize
      ⟨[(.self, exampleShape), (.writer, .writer)], 0, deviceOf [], writerOf [.accept 1, .fail .interrupted]⟩ (.val (.ok .unit), d1) ∧
    RunsD ⟨true, 64⟩ 1000 (program asciiTable exampleSchemas) ([], []) intoCall ⟨[(.message, exampleShape)], 0, deviceOf [], vector []⟩ (.val v', d2) ∧
    RunsD ⟨false, 64⟩ 1000 (program asciiTable exampleSchemas) (generatedType asciiTable ⟨[ident "main"]⟩ exampleMain.declarations[0] .inn) traitDeserialize
      ⟨[(.reader, .reader 1)], 1, deviceOf (byteByByte d1.writer.written), vector []⟩ (.val (.ok v'), d3) := by
  have hd : exampleSchemas.Declares (["main".toList], "shape".toList) ⟨[ident "main"]⟩ exampleMain (exampleMain.declarations[0]) :=
    ⟨.tail _ (.head _), .head _, by decide +kernel⟩
  obtain ⟨c, hc, -⟩ := C30_wire_type exampleSchemas exampleSchemas_loaded (by decide +kernel) _ _ _ _ hd
  rcases (C84_serialize exampleSchemas_accepted hc exampleShape_holds (by decide +kernel) (target := ⟨true, 64⟩) rfl 1000 ([], []) (deviceOf [])
    [.accept 1, .fail .interrupted]).2 with ⟨d1, h, -⟩ | ⟨e, _, ⟨h1, h2⟩ | ⟨-, h2⟩, -⟩
  · obtain ⟨v', d2, d3, -, h2, h3, -⟩ := C84_round_trip exampleSchemas_accepted hc hd exampleShape_holds (lim := 1000) (by decide) (by decide +kernel)
      (target := ⟨true, 64⟩) (target' := ⟨false, 64⟩) rfl rfl ([], []) (deviceOf []) _ h (r' := deviceOf (byteByByte d1.writer.written))
      ⟨fun e he => by obtain ⟨b, -, rfl⟩ := List.mem_map.mp he; rfl, (delivered_byteByByte _).symm⟩
    exact ⟨v', d1, d2, d3, h, h2, h3⟩
  · simp at h2
    exact absurd h2 h1
  · simp at h2

/-- Executed: the reader of `main::ShapeIn` fails in the second field header. -/
example : (match evalInD ⟨true, 64⟩ 1000 (callFnD ⟨true, 64⟩ 1000 (program asciiTable exampleSchemas) 20) 20
      (generatedType asciiTable ⟨[ident "main"]⟩ exampleMain.declarations[0] .inn) traitDeserialize
      ⟨[(.reader, .reader 1)], 1, deviceOf [.data 7 [5, 104], .data 105 [], .fail (.other 7), .data 1 []], vector []⟩ with
    | some (.val (.err k), _) => decide (k = .other 7)
    | _ => false) = true := by decide +kernel

/-- Executed: the writer accepts two bytes and then nothing. -/
example : (match evalInD ⟨false, 64⟩ 1000 (callFnD ⟨false, 64⟩ 1000 (program asciiTable exampleSchemas) 20) 20 ([], []) traitSerialize
      ⟨[(.self, exampleShape), (.writer, .writer)], 0, deviceOf [], writerOf [.accept 1, .accept 1, .accept 0]⟩ with
    | some (.val (.err k), d) => decide (k = .writeZero ∧ d.writer.written = (exampleShapeTree.wire false).take 2)
    | _ => false) = true := by decide +kernel

end Typical
