import Verif.Gen.RuntimeProof
import Verif.Props.Header
import Verif.Props.GeneratedFile
import Verif.IoWriteLemmas
import Verif.Spec.Io

/-!
# C80, C81: the functions at the top of the generated Rust file, as code

`Gen.Rt.RFn.body` is the code of the eleven functions which every generated Rust file begins with, `Gen.Rt.callR` executes it as
Rust does: with or without overflow checks, with a `usize` of any number of bits, on any reader and writer.
-/

namespace Typical

open Gen.Rt

/-- The arguments have the types of the parameters. -/
def WellTyped (t : Target) : RFn → List RVal → Prop
  | .zigzagEncode, [.i64 _] => True
  | .zigzagDecode, [.u64 _] => True
  | .varintSizeFromValue, [.u64 _] => True
  | .varintSizeFromFirstByte, [.u8 _] => True
  | .serializeVarint, [.u64 _, .writer] => True
  | .deserializeVarint, [.reader] => True
  | .fieldHeaderSize, [.u64 _, .usize n, .bool _] => n < 2 ^ t.bits
  | .serializeFieldHeader, [.writer, .u64 _, .usize n, .bool _] => n < 2 ^ t.bits
  | .deserializeFieldHeader, [.reader] => True
  | .skip, [.reader, .usize n] => n < 2 ^ t.bits
  | .finish, [.reader] => True
  | _, _ => False

/-! ### The text -/

/-- **C80 (text).** Every generated Rust file contains the text of this code. -/
theorem C80_text (T : CharTable) (version : Str) (S : Schemas) (h : Gen.rustText T version S ≠ []) (f : RFn) :
    f.defText <:+: Gen.rustText T version S := by
  unfold Gen.rustText at h ⊢
  split at h
  · rename_i hn
    rw [if_pos hn]
    have hf : f.defText ∈ rfns.map RFn.defText := List.mem_map_of_mem (by cases f <;> decide)
    obtain ⟨x, y, hxy⟩ := infix_joinWith "\n\n".toList hf
    refine ⟨Gen.runtimeHead.toList ++ version ++ preamble.toList ++ x, y ++ "\n\n".toList ++ Gen.moduleText T 0 [] (buildTree S), ?_⟩
    simp only [runtimeText, ← hxy, List.append_assoc]
  · exact absurd rfl h

/-! ### No panic, no overflow -/

theorem Runs.unique {σ : Type} {t : Target} {D : Device σ} {f : RFn} {vs : List RVal} {d d1 d2 : σ} {o1 o2 : ROut}
    (h1 : Gen.Rt.Runs t D f vs d o1 d1) (h2 : Gen.Rt.Runs t D f vs d o2 d2) : o1 = o2 ∧ d1 = d2 := by
  obtain ⟨N1, h1⟩ := h1
  obtain ⟨N2, h2⟩ := h2
  have := (h1 (N1 + N2) (by omega) []).symm.trans (h2 (N1 + N2) (by omega) [])
  simp only [Option.some.injEq, Prod.mk.injEq, RSt.mk.injEq, true_and] at this
  exact this

theorem simO_io {α : Type} {f : ReadM α} {g : Bytes → Option (α × Bytes)} {r : Reader} (h : SimO (fun _ => True) f g r) :
    (∃ a, (f r).1 = .ok a) ∨ ∃ k, (f r).1 = .error (.io k) := by
  obtain ⟨t, ht⟩ := exists_rep r
  rcases h t ht with ⟨k, _, h⟩ | h
  · exact .inr ⟨k, h⟩
  · split at h
    · exact .inl ⟨_, h.1⟩
    · exact .inr ⟨_, h.1⟩

theorem writeAllLoop_io : (events : List WEvent) → (b written : Bytes) →
    (writeAllLoop b events written).1 = .ok () ∨ ∃ k, (writeAllLoop b events written).1 = .error (.io k)
  | [], b, written => by simp [writeAllLoop]
  | e :: events, b, written => by
    unfold writeAllLoop
    by_cases hb : b = []
    · rw [if_pos hb]
      exact .inl rfl
    · rw [if_neg hb]
      split
      · exact .inr ⟨_, rfl⟩
      · exact writeAllLoop_io events _ _
      · exact writeAllLoop_io events _ _
      · exact .inr ⟨_, rfl⟩

theorem writeAll_io (b : Bytes) (w : Writer) : (writeAll b w).1 = .ok () ∨ ∃ k, (writeAll b w).1 = .error (.io k) :=
  writeAllLoop_io w.events b w.written

theorem headerW_io (i n : Nat) (b : Bool) (w : Writer) :
    (serializeFieldHeaderW i n b w).1 = .ok () ∨ ∃ k, (serializeFieldHeaderW i n b w).1 = .error (.io k) := by
  unfold serializeFieldHeaderW
  split
  · exact writeAll_io _ w
  · exact writeAll_io _ w
  · split
    · exact writeAll_io _ w
    · simp only [WriteM.andThen, serializeVarintW]
      rcases h : writeAll (serializeVarint (UInt64.ofNat i <<< 2 ||| 3)) w with ⟨e | _, w'⟩
      · rcases writeAll_io (serializeVarint (UInt64.ofNat i <<< 2 ||| 3)) w with h' | ⟨k, h'⟩
        · rw [h] at h'
          cases h'
        · rw [h] at h'
          exact .inr ⟨k, h'⟩
      · exact writeAll_io _ w'

theorem ofDevice_val {α : Type} (f : α → RVal) {x : Except IoErr α} (h : (∃ a, x = .ok a) ∨ ∃ k, x = .error (.io k)) :
    ∃ v, ofDevice f x = .val v := by
  rcases h with ⟨a, rfl⟩ | ⟨k, rfl⟩
  · exact ⟨_, rfl⟩
  · exact ⟨_, rfl⟩

theorem ofDevice_val' {x : Except IoErr Unit} (h : x = .ok () ∨ ∃ k, x = .error (.io k)) :
    ∃ v, ofDevice (fun _ => RVal.unit) x = .val v :=
  ofDevice_val _ (h.imp (fun h => ⟨(), h⟩) id)

/-- Every function ends with a value, the same with and without overflow checks, except that `skip` may not end. -/
theorem runs_all {b : Nat} (hb : 16 ≤ b) {f : RFn} {vs : List RVal} (h : WellTyped ⟨true, b⟩ f vs) (r : Reader) (w : Writer) :
    (∃ v d', ∀ c, Gen.Rt.Runs ⟨c, b⟩ io f vs (r, w) (.val v) d') ∨ (f = .skip ∧ ∀ c, Diverges ⟨c, b⟩ io f vs (r, w)) := by
  unfold WellTyped at h
  split at h
  · exact .inl ⟨_, _, fun c => runs_zigzagEncode _ io _ _⟩
  · exact .inl ⟨_, _, fun c => runs_zigzagDecode _ io _ _⟩
  · exact .inl ⟨_, _, fun c => runs_varintSizeFromValue _ io _ _⟩
  · exact .inl ⟨_, _, fun c => runs_varintSizeFromFirstByte _ io _ _⟩
  · rename_i v
    obtain ⟨x, hx⟩ := ofDevice_val' (writeAll_io (serializeVarint v) w)
    refine .inl ⟨x, (r, (writeAll (serializeVarint v) w).2), fun c => ?_⟩
    have := runs_serializeVarint ⟨c, b⟩ io v (r, w)
    simp only [wrote, io] at this
    rw [hx] at this
    exact this
  · obtain ⟨x, hx⟩ := ofDevice_val .u64 (simO_io (deserializeVarintR_sim r))
    exact .inl ⟨x, _, fun c => hx ▸ runs_deserializeVarint ⟨c, b⟩ hb r w⟩
  · exact .inl ⟨_, _, fun c => runs_fieldHeaderSize ⟨c, b⟩ hb io _ _ _ _⟩
  · rename_i i n x
    obtain ⟨y, hy⟩ := ofDevice_val' (headerW_io i.toNat n x w)
    exact .inl ⟨y, _, fun c => hy ▸ runs_serializeFieldHeader ⟨c, b⟩ r w i n x⟩
  · obtain ⟨x, hx⟩ := ofDevice_val (headerVal ⟨true, b⟩) (simO_io (headerR_sim r))
    exact .inl ⟨x, _, fun c => hx ▸ runs_deserializeFieldHeader ⟨c, b⟩ hb r w⟩
  · rename_i a
    rcases skipR_cases a r with ⟨r', e⟩ | h'
    · exact .inr ⟨rfl, fun c => diverges_skip ⟨c, b⟩ a h r r' w e⟩
    · have hne : (skipR a r).1 ≠ .error .hang := by
        rcases h' with ⟨k, r', e⟩ | ⟨r', e⟩ <;> rw [e] <;> simp
      have hio : (skipR a r).1 = .ok () ∨ ∃ k, (skipR a r).1 = .error (.io k) := by
        rcases h' with ⟨k, r', e⟩ | ⟨r', e⟩
        · exact .inr ⟨k, by rw [e]⟩
        · exact .inl (by rw [e])
      obtain ⟨x, hx⟩ := ofDevice_val' hio
      exact .inl ⟨x, _, fun c => hx ▸ runs_skip ⟨c, b⟩ a h r w hne⟩
  · have hio : (finishR r).1 = .ok () ∨ ∃ k, (finishR r).1 = .error (.io k) := by
      obtain ⟨s, hs⟩ := exists_rep r
      rcases finishLoop_sim (r.calls + 1) r (by omega) hs with ⟨k, r', _, h⟩ | ⟨r', h, _⟩
      · exact .inr ⟨k, congrArg Prod.fst h⟩
      · exact .inl (congrArg Prod.fst h)
    obtain ⟨x, hx⟩ := ofDevice_val' hio
    exact .inl ⟨x, _, fun c => hx ▸ runs_finish ⟨c, b⟩ r w⟩
  · exact h.elim

/-- **C80 (no panic).** For arguments of the right types, any reader and any writer, no function panics: no arithmetic overflows,
no index and no slice is out of bounds. Each ends and gives a value (which may be an error of the reader or writer), except that
`skip` may go on forever. -/
theorem C80_no_panic (t : Target) (ht : 16 ≤ t.bits) {f : RFn} {vs : List RVal} (h : WellTyped t f vs) (r : Reader) (w : Writer) :
    (∃ v d', Gen.Rt.Runs t io f vs (r, w) (.val v) d') ∨ (f = .skip ∧ Diverges t io f vs (r, w)) := by
  obtain ⟨c, b⟩ := t
  have h : WellTyped ⟨true, b⟩ f vs := by
    unfold WellTyped at h ⊢
    exact h
  rcases runs_all ht h r w with ⟨v, d', h⟩ | ⟨h1, h2⟩
  · exact .inl ⟨v, d', h c⟩
  · exact .inr ⟨h1, h2 c⟩

/-- **C80 (build modes).** With and without overflow checks, the functions do the same. -/
theorem C80_build_modes {b : Nat} (hb : 16 ≤ b) {f : RFn} {vs : List RVal} (h : WellTyped ⟨true, b⟩ f vs) (r : Reader) (w : Writer) :
    (∀ o d', Gen.Rt.Runs ⟨true, b⟩ io f vs (r, w) o d' ↔ Gen.Rt.Runs ⟨false, b⟩ io f vs (r, w) o d') ∧
      (Diverges ⟨true, b⟩ io f vs (r, w) ↔ Diverges ⟨false, b⟩ io f vs (r, w)) := by
  have no : ∀ {c o d'}, Diverges ⟨c, b⟩ io f vs (r, w) → ¬ Gen.Rt.Runs ⟨c, b⟩ io f vs (r, w) o d' := by
    rintro c o d' hd ⟨N, hN⟩
    have := hN N (Nat.le_refl N) []
    rw [hd N []] at this
    cases this
  rcases runs_all hb h r w with ⟨v, d', h⟩ | ⟨_, h2⟩
  · refine ⟨fun o d'' => ⟨fun h' => ?_, fun h' => ?_⟩, ⟨fun h' => absurd (h true) (no h'), fun h' => absurd (h false) (no h')⟩⟩
    · obtain ⟨rfl, rfl⟩ := Runs.unique (h true) h'
      exact h false
    · obtain ⟨rfl, rfl⟩ := Runs.unique (h false) h'
      exact h true
  · exact ⟨fun o d'' => ⟨fun h' => absurd h' (no (h2 true)), fun h' => absurd h' (no (h2 false))⟩, ⟨fun _ => h2 false, fun _ => h2 true⟩⟩

/-! ### What the functions do -/

/-- The reader gives these bytes, in any pieces, without errors, and then its end. -/
def Delivers : Reader → Bytes → Prop
  | .device buf events, s => (∀ e ∈ events, e.isData = true) ∧ s = buf ++ delivered events
  | .take limit inner, s => ∃ s', Delivers inner s' ∧ s = s'.take limit

theorem represents_iff : (events : List Event) → {s : Bytes} →
    (Represents (fun _ => False) events s ↔ (∀ e ∈ events, e.isData = true) ∧ s = delivered events)
  | [], s => by simp [Represents, delivered]
  | .data b bs :: events, s => by
    simp only [Represents, represents_iff events, List.forall_mem_cons, Event.isData, true_and]
    constructor
    · rintro ⟨s', rfl, h, rfl⟩
      exact ⟨h, rfl⟩
    · rintro ⟨h, rfl⟩
      exact ⟨_, rfl, h, rfl⟩
  | .fail k :: events, s => by simp [Represents, Event.isData]

theorem delivers_iff : (r : Reader) → {s : Bytes} → (Delivers r s ↔ ∃ t, Rep (fun _ => False) r t ∧ view r t = s)
  | .device buf events, s => by
    simp only [Delivers, Rep, represents_iff, view]
    constructor
    · rintro ⟨h, rfl⟩
      exact ⟨_, ⟨_, rfl, h, rfl⟩, rfl⟩
    · rintro ⟨t, ⟨_, rfl, h, rfl⟩, rfl⟩
      exact ⟨h, rfl⟩
  | .take limit inner, s => by
    simp only [Delivers, Rep, delivers_iff inner, view]
    constructor
    · rintro ⟨_, ⟨t, h, rfl⟩, rfl⟩
      exact ⟨t, h, rfl⟩
    · rintro ⟨t, h, rfl⟩
      exact ⟨_, ⟨t, h, rfl⟩, rfl⟩

theorem adv_delivers {t : Bytes} {k : Nat} {r r' : Reader} (h : Adv (fun _ => False) t k r r') : Delivers r' ((view r t).drop k) :=
  (delivers_iff r').2 ⟨_, h.rep, h.view⟩

theorem simO_delivers {α : Type} {f : ReadM α} {g : Bytes → Option (α × Bytes)} {r : Reader} (h : SimO (fun _ => False) f g r) {s : Bytes}
    (hs : Delivers r s) : (∃ r', g s = none ∧ f r = (.error (.io .unexpectedEof), r') ∧ Delivers r' []) ∨
      ∃ a rest r', g s = some (a, rest) ∧ f r = (.ok a, r') ∧ Delivers r' rest := by
  obtain ⟨t, ht, rfl⟩ := (delivers_iff r).1 hs
  rcases h.step ht with ⟨_, _, hk, _⟩ | ⟨r', h1, h2, h3⟩ | ⟨a, r', k, h1, h2, _, h3⟩
  · exact hk.elim
  · refine .inl ⟨r', h1, h2, ?_⟩
    have := adv_delivers h3
    rwa [List.drop_length] at this
  · exact .inr ⟨a, _, r', h1, h2, adv_delivers h3⟩

/-- **C80 (integers).** ZigZag and the sizes of integers are as documented. -/
theorem C80_integers {σ : Type} (t : Target) (D : Device σ) (d : σ) :
    (∀ v : Int64, ∃ u : UInt64, (u.toNat : Int) = Spec.zigzag v.toInt ∧ Gen.Rt.Runs t D .zigzagEncode [.i64 v] d (.val (.u64 u)) d ∧
      Gen.Rt.Runs t D .zigzagDecode [.u64 u] d (.val (.i64 v)) d) ∧
    (∀ v : UInt64, Gen.Rt.Runs t D .varintSizeFromValue [.u64 v] d (.val (.usize (Spec.varintLength v.toNat))) d) ∧
    (∀ v : UInt64, ∀ b ∈ (Spec.varintBytes v.toNat).head?, ∃ n : UInt32, n.toNat = Spec.varintLength v.toNat ∧
      Gen.Rt.Runs t D .varintSizeFromFirstByte [.u8 b] d (.val (.u32 n)) d) := by
  refine ⟨fun v => ⟨_, C04_zigzag_closed_form v, runs_zigzagEncode t D v d, ?_⟩, fun v => ?_, fun v b hb => ⟨_, ?_, runs_varintSizeFromFirstByte t D b d⟩⟩
  · have := runs_zigzagDecode t D (zigzagEncode v) d
    rwa [C04_zigzag_decode_encode] at this
  · have := runs_varintSizeFromValue t D v d
    rwa [(C02_varint_length v).2] at this
  · obtain ⟨c, cs, h1, h2⟩ := C02_varint_first_byte v
    rw [← serializeVarint_eq, h1] at hb
    cases hb
    rw [h2, (C02_varint_length v).1]
    have := varintLength_range v.toNat
    simp only [UInt32.toNat_ofNat']
    omega

/-- A writer which accepts everything, such as a vector: what it has accepted already. -/
def vector (written : Bytes) : Writer := ⟨written, []⟩

/-- **C80 (writing).** What is written for an integer and for the header of a field is as documented, and the size which is computed
for a header beforehand is the size which is written. -/
theorem C80_writing (t : Target) (ht : 16 ≤ t.bits) (r : Reader) (before : Bytes) :
    (∀ v : UInt64, Gen.Rt.Runs t io .serializeVarint [.u64 v, .writer] (r, vector before) (.val (.ok .unit))
      (r, vector (before ++ Spec.varintBytes v.toNat))) ∧
    (∀ (i : UInt64) (n : Nat) (b : Bool), i.toNat < 2 ^ 62 → n < 2 ^ 64 →
      Gen.Rt.Runs t io .serializeFieldHeader [.writer, .u64 i, .usize n, .bool b] (r, vector before) (.val (.ok .unit))
        (r, vector (before ++ Spec.header i.toNat n b)) ∧
      Gen.Rt.Runs t io .fieldHeaderSize [.u64 i, .usize n, .bool b] (r, vector before)
        (.val (.usize (Spec.header i.toNat n b).length)) (r, vector before)) := by
  refine ⟨fun v => ?_, fun i n b hi hn => ⟨?_, ?_⟩⟩
  · have := runs_serializeVarint t io v (r, vector before)
    rwa [serializeVarint_eq] at this
  · have := runs_serializeFieldHeader t r (vector before) i n b
    have h : serializeFieldHeaderW i.toNat n b (vector before) = (.ok (), vector (before ++ serializeFieldHeader i.toNat n b)) := by
      rcases serializeFieldHeaderW_sim i.toNat n b (vector before) with ⟨events, h1, h2⟩ | ⟨_, _, _, _, _, _, _, h | h⟩
      · cases List.suffix_nil.1 h1
        exact h2
      · cases h.2
      · cases h.2
    rw [h, C05_header_layout _ _ _ hi hn] at this
    exact this
  · have := runs_fieldHeaderSize t ht io i n b (r, vector before)
    rwa [C05_header_size, C05_header_layout _ _ _ hi hn] at this

/-- **C80 (reading, any bytes).** On a reader which gives the bytes `s`, in any pieces: `deserialize_varint` and
`deserialize_field_header` give what the functions on byte lists of `Verif/Varint.lean` and `Verif/Rust.lean` give (sizes modulo the size of
`usize`), and leave the rest; `skip` leaves the rest, or never ends if there are not enough bytes; `finish` leaves nothing. -/
theorem C80_reading (t : Target) (ht : 16 ≤ t.bits) {r : Reader} {s : Bytes} (hs : Delivers r s) (w : Writer) :
    (∃ r', (∀ v rest, deserializeVarint s = some (v, rest) →
        Gen.Rt.Runs t io .deserializeVarint [.reader] (r, w) (.val (.ok (.u64 v))) (r', w) ∧ Delivers r' rest) ∧
      (deserializeVarint s = none → Gen.Rt.Runs t io .deserializeVarint [.reader] (r, w) (.val (.err .unexpectedEof)) (r', w))) ∧
    (∃ r', (∀ i n rest, deserializeFieldHeader s = some (i, n, rest) →
        Gen.Rt.Runs t io .deserializeFieldHeader [.reader] (r, w)
          (.val (.ok (.pair (.u64 (UInt64.ofNat i)) (.usize (n % 2 ^ t.bits))))) (r', w) ∧ Delivers r' rest) ∧
      (deserializeFieldHeader s = none →
        Gen.Rt.Runs t io .deserializeFieldHeader [.reader] (r, w) (.val (.err .unexpectedEof)) (r', w))) ∧
    (∀ n, n < 2 ^ t.bits →
      (n ≤ s.length → ∃ r', Gen.Rt.Runs t io .skip [.reader, .usize n] (r, w) (.val (.ok .unit)) (r', w) ∧ Delivers r' (s.drop n)) ∧
      (s.length < n → Diverges t io .skip [.reader, .usize n] (r, w))) ∧
    (∃ r', Gen.Rt.Runs t io .finish [.reader] (r, w) (.val (.ok .unit)) (r', w) ∧ Delivers r' []) := by
  refine ⟨?_, ?_, fun n hn => ?_, ?_⟩
  · have h := runs_deserializeVarint t ht r w
    rcases simO_delivers (deserializeVarintR_sim r) hs with ⟨r', h1, h2, h3⟩ | ⟨a, rest, r', h1, h2, h3⟩
    · rw [h2] at h
      refine ⟨r', ⟨fun v rest e => (by rw [h1] at e; cases e), fun _ => h⟩⟩
    · rw [h2] at h
      refine ⟨r', fun v rest' e => ?_, fun e => by rw [h1] at e; cases e⟩
      rw [h1] at e
      cases e
      exact ⟨h, h3⟩
  · have h := runs_deserializeFieldHeader t ht r w
    rcases simO_delivers (headerR_sim r) hs with ⟨r', h1, h2, h3⟩ | ⟨a, rest, r', h1, h2, h3⟩
    · rw [h2] at h
      refine ⟨r', fun i n rest e => ?_, fun _ => h⟩
      rw [e] at h1
      cases h1
    · rw [h2] at h
      refine ⟨r', fun i n rest' e => ?_, fun e => ?_⟩
      · rw [e] at h1
        cases h1
        exact ⟨h, h3⟩
      · rw [e] at h1
        cases h1
  · obtain ⟨u, hu, rfl⟩ := (delivers_iff r).1 hs
    rcases skipLoop_sim (r.calls + 1) n r (by omega) hu with ⟨_, _, hk, _⟩ | ⟨r', h1, h2⟩ | ⟨r', h1, h2, h3⟩
    · exact hk.elim
    · exact ⟨fun h => absurd h (by omega), fun _ => diverges_skip t n hn r r' w h2⟩
    · refine ⟨fun _ => ⟨r', ?_, adv_delivers h3⟩, fun h => absurd h (by omega)⟩
      have h2 : skipR n r = (.ok (), r') := h2
      have := runs_skip t n hn r w (by rw [h2]; nofun)
      rw [h2] at this
      exact this
  · obtain ⟨u, hu, rfl⟩ := (delivers_iff r).1 hs
    rcases finishLoop_sim (r.calls + 1) r (by omega) hu with ⟨_, _, hk, _⟩ | ⟨r', h2, h3⟩
    · exact hk.elim
    · have h2 : finishR r = (.ok (), r') := h2
      have := runs_finish t r w
      rw [h2] at this
      refine ⟨r', this, ?_⟩
      have := adv_delivers h3
      rwa [List.drop_length] at this

/-- **C80 (reading what was written).** A reader which gives what was written, followed by anything, in any pieces: the integer and the header
are read back, and what follows is left. -/
theorem C80_reads_back (t : Target) (ht : 16 ≤ t.bits) (w : Writer) (rest : Bytes) :
    (∀ (r : Reader) (v : UInt64), Delivers r (Spec.varintBytes v.toNat ++ rest) → ∃ r',
      Gen.Rt.Runs t io .deserializeVarint [.reader] (r, w) (.val (.ok (.u64 v))) (r', w) ∧ Delivers r' rest) ∧
    (∀ (r : Reader) (i : Nat) (b : Bool) (value : Bytes), i < 2 ^ 62 → value.length < 2 ^ t.bits → value.length < 2 ^ 64 →
      (b = true → value.length ≠ 0 → value.length ≠ 8 → ∃ v : UInt64, value = Spec.varintBytes v.toNat) →
      Delivers r (Spec.header i value.length b ++ value ++ rest) → ∃ r',
      Gen.Rt.Runs t io .deserializeFieldHeader [.reader] (r, w) (.val (.ok (.pair (.u64 (UInt64.ofNat i)) (.usize value.length)))) (r', w) ∧
        Delivers r' (value ++ rest)) := by
  constructor
  · intro r v hs
    obtain ⟨⟨r', h, _⟩, _⟩ := C80_reading t ht hs w
    exact ⟨r', h v rest (by rw [← serializeVarint_eq]; exact C01_varint_round_trip v rest)⟩
  · intro r i b value hi hn hn' hv hs
    obtain ⟨_, ⟨r', h, _⟩, _⟩ := C80_reading t ht hs w
    have := h i value.length (value ++ rest) (by
      rw [← C05_header_layout _ _ _ hi hn']
      refine C05_header_round_trip i value rest b hi hn' fun h1 h2 h3 => ?_
      obtain ⟨v, h⟩ := hv h1 h2 h3
      exact ⟨v, by rw [serializeVarint_eq]; exact h⟩)
    rw [Nat.mod_eq_of_lt hn] at this
    exact ⟨r', this⟩

/-! ### Examples -/

/-- The arguments of a call. -/
example : WellTyped ⟨true, 64⟩ .serializeFieldHeader [.writer, .u64 5, .usize 300, .bool false] :=
  show 300 < 2 ^ 64 by decide

/-- A file is generated. -/
example : Gen.rustText asciiTable "1.0.0".toList exampleSchemas ≠ [] := by
  unfold Gen.rustText
  rw [if_pos (by decide +kernel)]
  intro h
  have := congrArg List.length h
  simp [Gen.runtimeHead] at this

/-- A reader which gives the number 16512 and another byte in two pieces. -/
example : Delivers (deviceOf [.data 4 [0], .data 0 [9]]) (Spec.varintBytes (16512 : UInt64).toNat ++ [9]) :=
  ⟨by decide, by decide⟩

/-- A reader which is limited to the header of a field with index 5 and three bytes, and those three bytes. -/
example : Delivers (.take 5 (deviceOf [.data 47 [7], .data 1 [2], .data 3 [4, 5]])) (Spec.header 5 3 false ++ [1, 2, 3] ++ []) :=
  ⟨[47, 7, 1, 2, 3, 4, 5], ⟨by decide, by decide⟩, by decide⟩

/-- What the code gives for it. -/
example : ((callR ⟨true, 64⟩ io 4 .deserializeFieldHeader [.reader] ⟨[], (.take 5 (deviceOf [.data 47 [7], .data 1 [2], .data 3 [4, 5]]),
    writerOf [])⟩).map fun x => match x.1 with
      | .val (.ok (.pair (.u64 i) (.usize n))) => (i, n)
      | _ => (0, 0)) = some (5, 3) := by decide +kernel

/-! ### C81: targets with different word sizes -/

/-- Every function but `deserialize_field_header` ends with a value which depends neither on overflow checks nor on the word size, except
that `skip` may not end. -/
theorem runs_words {f : RFn} {vs : List RVal} (hf : f ≠ .deserializeFieldHeader) (r : Reader) (w : Writer) :
    (∃ v d', ∀ t : Target, 16 ≤ t.bits → WellTyped t f vs → Gen.Rt.Runs t io f vs (r, w) (.val v) d') ∨
      ∀ t : Target, 16 ≤ t.bits → WellTyped t f vs → Diverges t io f vs (r, w) := by
  by_cases hx : ∃ B, WellTyped ⟨true, B⟩ f vs
  · obtain ⟨B, h⟩ := hx
    unfold WellTyped at h
    split at h
    · exact .inl ⟨_, _, fun t _ _ => runs_zigzagEncode t io _ _⟩
    · exact .inl ⟨_, _, fun t _ _ => runs_zigzagDecode t io _ _⟩
    · exact .inl ⟨_, _, fun t _ _ => runs_varintSizeFromValue t io _ _⟩
    · exact .inl ⟨_, _, fun t _ _ => runs_varintSizeFromFirstByte t io _ _⟩
    · rename_i v
      obtain ⟨x, hx⟩ := ofDevice_val' (writeAll_io (serializeVarint v) w)
      refine .inl ⟨x, (r, (writeAll (serializeVarint v) w).2), fun t _ _ => ?_⟩
      have := runs_serializeVarint t io v (r, w)
      simp only [wrote, io] at this
      rw [hx] at this
      exact this
    · obtain ⟨x, hx⟩ := ofDevice_val .u64 (simO_io (deserializeVarintR_sim r))
      exact .inl ⟨x, _, fun t ht _ => hx ▸ runs_deserializeVarint t ht r w⟩
    · exact .inl ⟨_, _, fun t ht _ => runs_fieldHeaderSize t ht io _ _ _ _⟩
    · rename_i i n x
      obtain ⟨y, hy⟩ := ofDevice_val' (headerW_io i.toNat n x w)
      exact .inl ⟨y, _, fun t _ _ => hy ▸ runs_serializeFieldHeader t r w i n x⟩
    · exact absurd rfl hf
    · rename_i a
      rcases skipR_cases a r with ⟨r', e⟩ | h'
      · exact .inr fun t _ ht => diverges_skip t a ht r r' w e
      · have hne : (skipR a r).1 ≠ .error .hang := by
          rcases h' with ⟨k, r', e⟩ | ⟨r', e⟩ <;> rw [e] <;> simp
        have hio : (skipR a r).1 = .ok () ∨ ∃ k, (skipR a r).1 = .error (.io k) := by
          rcases h' with ⟨k, r', e⟩ | ⟨r', e⟩
          · exact .inr ⟨k, by rw [e]⟩
          · exact .inl (by rw [e])
        obtain ⟨x, hx⟩ := ofDevice_val' hio
        exact .inl ⟨x, _, fun t _ ht => hx ▸ runs_skip t a ht r w hne⟩
    · have hio : (finishR r).1 = .ok () ∨ ∃ k, (finishR r).1 = .error (.io k) := by
        obtain ⟨s, hs⟩ := exists_rep r
        rcases finishLoop_sim (r.calls + 1) r (by omega) hs with ⟨k, r', _, h⟩ | ⟨r', h, _⟩
        · exact .inr ⟨k, congrArg Prod.fst h⟩
        · exact .inl (congrArg Prod.fst h)
      obtain ⟨x, hx⟩ := ofDevice_val' hio
      exact .inl ⟨x, _, fun t _ _ => hx ▸ runs_finish t r w⟩
    · exact h.elim
  · exact .inr fun t _ h => absurd ⟨t.bits, by unfold WellTyped at h ⊢; exact h⟩ hx

/-- **C81 (partial).** On targets with different word sizes, every function but `deserialize_field_header` does the same, on every reader and
writer. Missing: `deserialize_field_header`, for which this is false (`C81_header_differs`). -/
theorem C81_same_partial {t u : Target} (ht : 16 ≤ t.bits) (hu : 16 ≤ u.bits) {f : RFn} (hf : f ≠ .deserializeFieldHeader) {vs : List RVal}
    (h1 : WellTyped t f vs) (h2 : WellTyped u f vs) (r : Reader) (w : Writer) (o : ROut) (d' : Reader × Writer) :
    Gen.Rt.Runs t io f vs (r, w) o d' ↔ Gen.Rt.Runs u io f vs (r, w) o d' := by
  have no : ∀ {t : Target} {o d'}, Diverges t io f vs (r, w) → ¬ Gen.Rt.Runs t io f vs (r, w) o d' := by
    rintro t o d' hd ⟨N, hN⟩
    have := hN N (Nat.le_refl N) []
    rw [hd N []] at this
    cases this
  rcases runs_words hf r w with ⟨v, d'', h⟩ | h
  · constructor
    · intro h'
      obtain ⟨rfl, rfl⟩ := Runs.unique (h t ht h1) h'
      exact h u hu h2
    · intro h'
      obtain ⟨rfl, rfl⟩ := Runs.unique (h u hu h2) h'
      exact h t ht h1
  · exact ⟨fun h' => absurd h' (no (h t ht h1)), fun h' => absurd h' (no (h u hu h2))⟩

/-- The sizes fit: the same arguments on targets of 32 and of 64 bits. -/
example : WellTyped ⟨true, 32⟩ .skip [.reader, .usize 4000000000] ∧ WellTyped ⟨false, 64⟩ .skip [.reader, .usize 4000000000] :=
  show 4000000000 < 2 ^ 32 ∧ 4000000000 < 2 ^ 64 by decide

/-- **C81 (partial).** `deserialize_field_header` does the same on targets with different word sizes if the size in the header is less than
the number of values of `usize` on both. -/
theorem C81_header_partial {t u : Target} (ht : 16 ≤ t.bits) (hu : 16 ≤ u.bits) {r : Reader} {s : Bytes} (hs : Delivers r s) (w : Writer)
    (hn : ∀ i n rest, deserializeFieldHeader s = some (i, n, rest) → n < 2 ^ t.bits ∧ n < 2 ^ u.bits) (o : ROut) (d' : Reader × Writer) :
    Gen.Rt.Runs t io .deserializeFieldHeader [.reader] (r, w) o d' ↔ Gen.Rt.Runs u io .deserializeFieldHeader [.reader] (r, w) o d' := by
  have h1 := runs_deserializeFieldHeader t ht r w
  have h2 := runs_deserializeFieldHeader u hu r w
  have h : ofDevice (headerVal t) (deserializeFieldHeaderR r).1 = ofDevice (headerVal u) (deserializeFieldHeaderR r).1 := by
    rcases simO_delivers (headerR_sim r) hs with ⟨r', _, e, _⟩ | ⟨⟨i, n⟩, rest, r', e', e, _⟩
    · rw [e]
      rfl
    · rw [e]
      have e' : deserializeFieldHeader s = some (i, n, rest) := by
        cases hd : deserializeFieldHeader s with
        | none => rw [hd] at e'; cases e'
        | some p =>
          rw [hd] at e'
          cases e'
          rfl
      obtain ⟨hn1, hn2⟩ := hn i n rest e'
      simp only [ofDevice, headerVal, Nat.mod_eq_of_lt hn1, Nat.mod_eq_of_lt hn2]
  rw [← h] at h2
  constructor
  · intro h'
    obtain ⟨rfl, rfl⟩ := Runs.unique h1 h'
    exact h2
  · intro h'
    obtain ⟨rfl, rfl⟩ := Runs.unique h2 h'
    exact h1

/-- The hypothesis, for a header with the size 300. -/
example : ∀ i n rest, deserializeFieldHeader (Spec.header 5 300 false ++ [1]) = some (i, n, rest) → n < 2 ^ 32 ∧ n < 2 ^ 64 := by
  have : deserializeFieldHeader (Spec.header 5 300 false ++ [1]) = some (5, 300, [1]) := by decide +kernel
  rintro i n rest h
  rw [this] at h
  cases h
  decide

/-- A header of a field with index 0 and the size 4294967297. -/
def largeHeader : Bytes := Spec.header 0 4294967297 false

/-- **C81 (false as stated).** A header whose size is 4294967297 is read as such on a 64-bit target and as one with the size 1 on a 32-bit target,
with or without overflow checks. -/
theorem C81_header_differs (c : Bool) (rest : Bytes) (w : Writer) :
    (∃ r', Gen.Rt.Runs ⟨c, 64⟩ io .deserializeFieldHeader [.reader] (deviceOf [.data 7 (largeHeader.tail ++ rest)], w)
      (.val (.ok (.pair (.u64 0) (.usize 4294967297)))) (r', w) ∧ Delivers r' rest) ∧
    (∃ r', Gen.Rt.Runs ⟨c, 32⟩ io .deserializeFieldHeader [.reader] (deviceOf [.data 7 (largeHeader.tail ++ rest)], w)
      (.val (.ok (.pair (.u64 0) (.usize 1)))) (r', w) ∧ Delivers r' rest) := by
  have hl : largeHeader = 7 :: largeHeader.tail := by decide +kernel
  have hs : Delivers (deviceOf [.data 7 (largeHeader.tail ++ rest)]) (largeHeader ++ rest) := by
    refine ⟨by simp [Event.isData], ?_⟩
    rw [hl]
    simp [delivered, Event.bytes]
  have hd : deserializeFieldHeader (largeHeader ++ rest) = some (0, 4294967297, rest) := by
    have hv : ∀ n < 2 ^ 64, ∀ r, deserializeVarint (Spec.varintBytes n ++ r) = some (UInt64.ofNat n, r) := fun n hn r => by
      rw [varintBytes_eq hn, C01_varint_round_trip]
    have : largeHeader = Spec.varintBytes 3 ++ Spec.varintBytes 4294967297 := by decide +kernel
    rw [this, List.append_assoc, deserializeFieldHeader, hv 3 (by decide)]
    simp only [hv 4294967297 (by decide)]
    rfl
  constructor
  · obtain ⟨_, ⟨r', h, _⟩, _⟩ := C80_reading ⟨c, 64⟩ (by decide : 16 ≤ 64) hs w
    exact ⟨r', h 0 4294967297 rest hd⟩
  · obtain ⟨_, ⟨r', h, _⟩, _⟩ := C80_reading ⟨c, 32⟩ (by decide : 16 ≤ 32) hs w
    have := h 0 4294967297 rest hd
    rw [show 4294967297 % 2 ^ (⟨c, 32⟩ : Target).bits = 1 from (by decide : 4294967297 % 2 ^ 32 = 1)] at this
    exact ⟨r', this⟩

end Typical
