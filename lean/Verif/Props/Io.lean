import Verif.IoLemmas
import Verif.IoWriteLemmas
import Verif.Spec.Io
import Verif.Props.Robust

/-!
# Properties C54, C55, C56: readers and writers which are devices
-/

namespace Typical

theorem represents_append {P : Kind → Prop} {s : Bytes} : {events rest : List Event} →
    (∀ e ∈ events, e.isData = true) → Represents P rest s →
    Represents P (events ++ rest) (delivered events ++ s)
  | [], _, _, h => h
  | .data b bs :: events, rest, hd, h =>
    ⟨delivered events ++ s, by simp [delivered, Event.bytes],
      represents_append (fun e he => hd e (List.mem_cons_of_mem _ he)) h⟩
  | .fail k :: events, rest, hd, h => absurd (hd _ List.mem_cons_self) (by simp [Event.isData])

theorem represents_all {P : Kind → Prop} (events : List Event)
    (h : ∀ k, .fail k ∈ events → P k) : Represents P events (delivered events) := by
  induction events with
  | nil => rfl
  | cons e events ih =>
    have ih := ih (fun k hk => h k (List.mem_cons_of_mem _ hk))
    cases e with
    | data b bs => exact ⟨delivered events, by simp [delivered, Event.bytes], ih⟩
    | fail k => exact ⟨h k List.mem_cons_self, fun _ => by simpa [delivered, Event.bytes] using ih⟩

theorem deser_decl (lim : Nat) (c : CTy) (hc : c.isDecl = true) (n m : Nat) (s : Bytes) :
    c.deser lim false n s = c.deser lim false m s := by
  cases c with
  | struct fs => simp only [CTy.deser]
  | choice fs => simp only [CTy.deser]
  | _ => cases hc

theorem deser_decl_rest {lim : Nat} {c : CTy} (hc : c.isDecl = true) {n : Nat} {s : Bytes}
    {m : c.Msg .inn} {r : Bytes} (h : c.deser lim false n s = .ok (m, r)) : r = [] := by
  cases c with
  | struct fs =>
    simp only [CTy.deser] at h
    split at h
    · cases h
    · split at h
      · cases h
      · cases h; rfl
  | choice fs =>
    simp only [CTy.deser] at h
    split at h
    · cases h
    · cases h; rfl
  | _ => cases hc

theorem asIo_error (α : Type) (e : Err) : asIo (.error e : Except Err α) = .error e.toIo := by
  cases e <;> rfl

theorem deserializeR_cases {P : Kind → Prop} (hP : ¬ P .unexpectedEof) (lim : Nat) (c : CTy)
    (hc : c.isDecl = true) (events : List Event) (s : Bytes) (h : Represents P events s) :
    (∃ k, P k ∧ (deserializeR lim c (deviceOf events)).1 = .error (.io k)) ∨
    (∃ e, deserialize lim c s = .error e ∧
      (deserializeR lim c (deviceOf events)).1 = .error e.toIo) ∨
    (∃ m, deserialize lim c s = .ok m ∧ (deserializeR lim c (deviceOf events)).1 = .ok m ∧
      Adv P s s.length (deviceOf events) (deserializeR lim c (deviceOf events)).2) := by
  have := CTy.deserR_sim hP lim false c 0 (deviceOf events) s ⟨s, rfl, h⟩
  rw [show view (deviceOf events) s = s from rfl, deser_decl lim c hc 0 s.length s] at this
  unfold deserializeR deserialize
  rcases this with ⟨k, r', hk, e⟩ | ⟨e, r', e1, e2⟩ | ⟨a, r', k, e1, e2, hk, ha⟩
  · exact .inl ⟨k, hk, by rw [e]⟩
  · exact .inr (.inl ⟨e, by rw [e1], by rw [e2]⟩)
  · refine .inr (.inr ⟨a, by rw [e1], by rw [e2], ?_⟩)
    have hd := deser_decl_rest hc e1
    have : k = s.length := by
      have := congrArg List.length hd
      rw [List.length_drop, List.length_nil] at this
      omega
    rw [e2]
    rwa [this] at ha

/-- **C54.** For each type of a declaration and each reader which does not fail, deserialisation gives the result which
the bytes give, however the reader delivers them; and after a success the reader is at its end. -/
theorem C54_chunks (lim : Nat) (c : CTy) (hc : c.isDecl = true) (events : List Event)
    (h : ∀ e ∈ events, e.isData = true) :
    (deserializeR lim c (deviceOf events)).1 = asIo (deserialize lim c (delivered events)) ∧
    (∀ m, deserialize lim c (delivered events) = .ok m →
      (deserializeR lim c (deviceOf events)).2 = deviceOf []) := by
  have hr : Represents (fun _ => False) events (delivered events) :=
    represents_all events (fun k hk => absurd (h _ hk) (by simp [Event.isData]))
  rcases deserializeR_cases (P := fun _ => False) (fun h => h) lim c hc events _ hr with
    ⟨_, h, _⟩ | ⟨e, e1, e2⟩ | ⟨m, e1, e2, ha⟩
  · exact h.elim
  · rw [e1, e2]
    exact ⟨(asIo_error _ e).symm, fun m hm => by cases hm⟩
  · rw [e1, e2]
    refine ⟨rfl, fun _ _ => ?_⟩
    generalize (deserializeR lim c (deviceOf events)).2 = r at ha
    cases r with
    | take _ _ => exact ha.elim
    | device buf evs =>
      obtain ⟨⟨s, hs, hrep⟩, _⟩ := ha
      rw [List.drop_length] at hs
      obtain ⟨rfl, rfl⟩ := List.append_eq_nil_iff.mp hs.symm
      cases evs with
      | nil => rfl
      | cons e evs =>
        cases e with
        | data b bs => obtain ⟨s', hs', _⟩ := hrep; simp at hs'
        | fail k => exact hrep.1.elim

/-- **C54 (schedules).** Two deliveries of the same bytes give the same result. -/
theorem C54_schedules (lim : Nat) (c : CTy) (hc : c.isDecl = true) (events events' : List Event)
    (h : ∀ e ∈ events, e.isData = true) (h' : ∀ e ∈ events', e.isData = true)
    (heq : delivered events = delivered events') :
    (deserializeR lim c (deviceOf events)).1 = (deserializeR lim c (deviceOf events')).1 := by
  rw [(C54_chunks lim c hc events h).1, (C54_chunks lim c hc events' h').1, heq]

/-- **C54 (round trip).** Hence a message is read correctly from every such reader. -/
theorem C54_round_trip (c : CTy) (hc : c.isDecl = true) (hw : c.WF) (m : c.Msg .out) (lim : Nat)
    (hlim : lim < 2 ^ 64) (h : 8 * size c m ≤ lim) (events : List Event)
    (hd : ∀ e ∈ events, e.isData = true) (hs : serialize c m = some (delivered events)) :
    (deserializeR lim c (deviceOf events)).1 = .ok (c.toIn m) := by
  obtain ⟨bs, h1, h2⟩ := C06_round_trip c hw m lim hlim h
  rw [hs] at h1
  cases h1
  rw [(C54_chunks lim c hc events hd).1, h2]
  rfl

/-- Every byte in a call of its own. -/
def byteByByte (s : Bytes) : List Event := s.map (fun b => .data b [])

theorem delivered_byteByByte (s : Bytes) : delivered (byteByByte s) = s := by
  unfold delivered byteByByte
  induction s with
  | nil => rfl
  | cons b s ih => simpa [Event.bytes] using ih

example : ∃ bs, serialize exampleType exampleMsg = some bs ∧
    (deserializeR 1000 exampleType (deviceOf (byteByByte bs))).1 = .ok (exampleType.toIn exampleMsg) := by
  obtain ⟨bs, h, _⟩ := C06_round_trip exampleType exampleType_wf exampleMsg 1000 (by decide) (by decide +kernel)
  refine ⟨bs, h, C54_round_trip _ rfl exampleType_wf _ 1000 (by decide) (by decide +kernel) _ ?_ ?_⟩
  · intro e he
    obtain ⟨b, -, rfl⟩ := List.mem_map.mp he
    rfl
  · rw [delivered_byteByByte, h]

/-! ### Errors of the reader -/

theorem adv_impossible {P : Kind → Prop} {t : Bytes} {k : Nat} {events : List Event} {r : Reader}
    (h : Adv P t k (deviceOf events) r) : k ≤ (deviceOf events).calls := by
  have := h.calls
  omega

/-- **C55 (partial).** A reader which fails with an error of any kind other than `UnexpectedEof` and `Interrupted` is
never mistaken for a complete message: deserialisation does not succeed, and it gives either the reader's error or
another failure which is independent of the bytes which have not arrived. (What is missing: the two other kinds, see
the witnesses.) -/
theorem C55_errors_partial (lim : Nat) (c : CTy) (hc : c.isDecl = true) (events later : List Event)
    (k : Kind) (hk : k ≠ .unexpectedEof) (hk' : k ≠ .interrupted) (h : ∀ e ∈ events, e.isData = true) :
    (deserializeR lim c (deviceOf (events ++ .fail k :: later))).1 = .error (.io k) ∨
    ∃ e : Err, (∀ rest, deserialize lim c (delivered events ++ rest) = .error e) ∧
      (deserializeR lim c (deviceOf (events ++ .fail k :: later))).1 =
        asIo (.error e : Except Err (c.Msg .inn)) := by
  by_cases hh : (deserializeR lim c (deviceOf (events ++ .fail k :: later))).1 = .error (.io k)
  · exact .inl hh
  right
  have hall : ∀ rest : Bytes, ∃ e, deserialize lim c (delivered events ++ rest) = .error e ∧
      (deserializeR lim c (deviceOf (events ++ .fail k :: later))).1 = .error e.toIo := by
    -- no continuation can make it succeed: a long one would have to be consumed
    have key : ∀ rest : Bytes,
        (∃ e, deserialize lim c (delivered events ++ rest) = .error e ∧
          (deserializeR lim c (deviceOf (events ++ .fail k :: later))).1 = .error e.toIo) ∨
        (∃ m, (deserializeR lim c (deviceOf (events ++ .fail k :: later))).1 = .ok m ∧
          (delivered events ++ rest).length ≤ (deviceOf (events ++ .fail k :: later)).calls) := by
      intro rest
      have hr : Represents (· = k) (events ++ .fail k :: later) (delivered events ++ rest) :=
        represents_append h ⟨rfl, fun h => absurd h hk'⟩
      rcases deserializeR_cases (P := (· = k)) (fun h => hk h.symm) lim c hc _ _ hr with
        ⟨_, rfl, e⟩ | ⟨e, e1, e2⟩ | ⟨m, e1, e2, ha⟩
      · exact absurd e hh
      · exact .inl ⟨e, e1, e2⟩
      · exact .inr ⟨m, e2, adv_impossible ha⟩
    have herr : ∃ e : Err, (deserializeR lim c (deviceOf (events ++ .fail k :: later))).1 = .error e.toIo := by
      rcases key (List.replicate ((deviceOf (events ++ .fail k :: later)).calls + 1) 0) with
        ⟨e, _, h⟩ | ⟨m, _, h⟩
      · exact ⟨e, h⟩
      · rw [List.length_append, List.length_replicate] at h
        omega
    obtain ⟨e, he⟩ := herr
    intro rest
    rcases key rest with h | ⟨m, h, _⟩
    · exact h
    · rw [he] at h; cases h
  obtain ⟨e, h1, h2⟩ := hall []
  refine ⟨e, fun rest => ?_, by rw [h2, asIo_error]⟩
  obtain ⟨e', h1', h2'⟩ := hall rest
  rw [h2] at h2'
  have : e = e' := by
    have h := Except.error.inj h2'
    cases e <;> cases e' <;> first | rfl | cases h
  rw [this]; exact h1'

theorem C55_errors_example : (deserializeR 1000 (.struct (.cons 0 .optional (.scalar .u64) .nil))
    (deviceOf ([.data 5 [7]] ++ .fail (.other 32) :: []))).1 = .error (.io (.other 32)) := by
  rcases C55_errors_partial 1000 (.struct (.cons 0 .optional (.scalar .u64) .nil)) rfl [.data 5 [7]] [] (.other 32)
    (by decide) (by decide) (by simp [Event.isData]) with h | ⟨e, h, _⟩
  · exact h
  · have h := h []
    cases e <;> cases h

/-- **C55 (interruptions).** If the reader's only errors are interruptions, deserialisation either gives the result which
the bytes give, or passes an interruption on. -/
theorem C55_interrupted (lim : Nat) (c : CTy) (hc : c.isDecl = true) (events : List Event)
    (h : ∀ k, .fail k ∈ events → k = .interrupted) :
    (deserializeR lim c (deviceOf events)).1 = asIo (deserialize lim c (delivered events)) ∨
    (deserializeR lim c (deviceOf events)).1 = .error (.io .interrupted) := by
  rcases deserializeR_cases (P := (· = .interrupted)) (by decide) lim c hc events _
    (represents_all events h) with ⟨_, rfl, h⟩ | ⟨e, e1, e2⟩ | ⟨m, e1, e2, _⟩
  · exact .inr h
  · left; rw [e1, e2, asIo_error]
  · left; rw [e1, e2]; rfl

/-- **C55 is false as stated, 1.** A reader which reports `UnexpectedEof` as an error (for example a decompressor whose
input is truncated) before the second field has arrived is taken for the end of the message: the message with both
fields, the same reader with the same failure as another kind, and what is read. -/
theorem C55_eof_witness :
    let c : CTy := .struct (.cons 0 .optional (.scalar .u64) (.cons 1 .optional (.scalar .u64) .nil))
    let m : c.Msg .out := (some (3 : UInt64), some (4 : UInt64), ())
    serialize c m = some [5, 7, 13, 9] ∧
    (deserializeR 1000 c (deviceOf [.data 5 [7], .fail .unexpectedEof, .data 13 [9]])).1 =
      .ok ((some (3 : UInt64), none, ()) : c.Msg .inn) ∧
    (deserializeR 1000 c (deviceOf [.data 5 [7], .fail (.other 32), .data 13 [9]])).1 =
      .error (.io (.other 32)) :=
  ⟨by decide +kernel, rfl, rfl⟩

/-- **C55 is false as stated, 2.** An interruption, which `Read::read_exact` and `Read::read_to_end` hide by trying again,
makes deserialisation fail when it happens while a field is skipped. -/
theorem C55_interrupted_witness :
    let c : CTy := .struct (.cons 0 .optional (.scalar .u64) .nil)
    (deserializeR 1000 c (deviceOf [.data 15 [3], .data 7 [5, 7]])).1 =
      .ok ((some (3 : UInt64), ()) : c.Msg .inn) ∧
    (deserializeR 1000 c (deviceOf [.data 15 [3], .fail .interrupted, .data 7 [5, 7]])).1 =
      .error (.io .interrupted) ∧
    (deserializeR 1000 c (deviceOf [.data 15 [3], .data 7 [5, 2], .fail .interrupted, .data 0 []])).1 =
      .ok ((some (128 : UInt64), ()) : c.Msg .inn) :=
  ⟨rfl, rfl, rfl⟩

/-! ### Writers -/

/-- **C56.** Serialisation to a writer writes exactly the message's bytes if it succeeds; if it fails, it does so with an
error which the writer has reported (or because the writer has accepted nothing), and what has been written is a proper
prefix of the message's bytes. Interruptions are never passed on. It never panics. -/
theorem C56_writers (c : CTy) (m : c.Msg .out) (events : List WEvent) :
    ∃ bs, serialize c m = some bs ∧
    (((serializeW c m (writerOf events)).1 = .ok () ∧
        (serializeW c m (writerOf events)).2.written = bs) ∨
     (∃ k, (serializeW c m (writerOf events)).1 = .error (.io k) ∧
        (serializeW c m (writerOf events)).2.written <+: bs ∧
        (serializeW c m (writerOf events)).2.written ≠ bs ∧
        (k ≠ .interrupted ∧ .fail k ∈ events ∨ k = .writeZero ∧ .accept 0 ∈ events))) := by
  refine ⟨_, serialize_eq c m, ?_⟩
  rcases CTy.serW_sim false c m (writerOf events) with ⟨ev, _, h⟩ | ⟨p, ev, k, h1, h2, _, h3, h4⟩
  · left
    unfold serializeW
    rw [h]
    exact ⟨rfl, rfl⟩
  · right
    unfold serializeW
    rw [h3]
    exact ⟨k, rfl, h1, h2, h4⟩

/-- **C56 (short writes).** A writer which never fails and always accepts something gets the whole message, however little it
accepts at a time and however often it is interrupted. -/
theorem C56_short_writes (c : CTy) (m : c.Msg .out) (events : List WEvent)
    (h : ∀ e ∈ events, e = .fail .interrupted ∨ ∃ n, e = .accept (n + 1)) :
    (serializeW c m (writerOf events)).1 = .ok () ∧
    some (serializeW c m (writerOf events)).2.written = serialize c m := by
  obtain ⟨bs, hs, h' | ⟨k, _, _, _, hk⟩⟩ := C56_writers c m events
  · exact ⟨h'.1, by rw [h'.2, hs]⟩
  · rcases hk with ⟨hk, hm⟩ | ⟨_, hm⟩
    · rcases h _ hm with h | ⟨n, h⟩
      · exact absurd (WEvent.fail.inj h) hk
      · cases h
    · rcases h _ hm with h | ⟨n, h⟩
      · cases h
      · cases h

example : (serializeW exampleType exampleMsg
    (writerOf [.accept 1, .fail .interrupted, .accept 2, .accept 3])).1 = .ok () :=
  (C56_short_writes _ _ _ (by simp)).1

example : (serializeW exampleType exampleMsg (writerOf [.accept 1, .fail (.other 32)])).1 =
    .error (.io (.other 32)) := rfl

end Typical
