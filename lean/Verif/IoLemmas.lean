import Verif.Io
import Verif.LoopLemmas

/-!
# Reading from devices agrees with reading from byte lists

Helper lemmas for `Props/Io.lean`.
-/

namespace Typical

/-- The calls of a device deliver the bytes `s`. Only errors of kinds in `P` occur, and what follows
an error other than `Interrupted` is unconstrained (and so are the bytes). -/
def Represents (P : Kind → Prop) : List Event → Bytes → Prop
  | [], s => s = []
  | .data b bs :: events, s => ∃ s', s = b :: bs ++ s' ∧ Represents P events s'
  | .fail k :: events, s => P k ∧ (k = .interrupted → Represents P events s)

/-- The device below the reader delivers the bytes `t`. -/
def Rep (P : Kind → Prop) : Reader → Bytes → Prop
  | .device buf events, t => ∃ s, t = buf ++ s ∧ Represents P events s
  | .take _ inner, t => Rep P inner t

/-- The part of the device's bytes which a reader can read. -/
def view : Reader → Bytes → Bytes
  | .device _ _, t => t
  | .take limit inner, t => (view inner t).take limit

/-- From `r`, `k` bytes have been consumed, and `r'` is left. -/
def Adv (P : Kind → Prop) (t : Bytes) (k : Nat) : Reader → Reader → Prop
  | .device buf events, .device buf' events' =>
    Rep P (.device buf' events') (t.drop k) ∧
      (Reader.device buf' events').calls + k ≤ (Reader.device buf events).calls
  | .take limit inner, .take limit' inner' => limit' + k = limit ∧ Adv P t k inner inner'
  | _, _ => False

theorem Adv.rep {P : Kind → Prop} {t : Bytes} {k : Nat} : {r r' : Reader} →
    Adv P t k r r' → Rep P r' (t.drop k)
  | .device _ _, .device _ _, h => h.1
  | .take _ r, .take _ r', h => by
    have := Adv.rep (r := r) (r' := r') h.2
    exact this

theorem Adv.calls {P : Kind → Prop} {t : Bytes} {k : Nat} : {r r' : Reader} →
    Adv P t k r r' → r'.calls + k ≤ r.calls
  | .device _ _, .device _ _, h => h.2
  | .take _ r, .take _ r', h => by
    have := Adv.calls (r := r) (r' := r') h.2
    exact this

theorem Adv.view {P : Kind → Prop} {t : Bytes} {k : Nat} : {r r' : Reader} →
    Adv P t k r r' → view r' (t.drop k) = (view r t).drop k
  | .device _ _, .device _ _, _ => rfl
  | .take n r, .take n' r', h => by
    have := Adv.view (r := r) (r' := r') h.2
    simp only [Typical.view, this, ← h.1, List.drop_take]
    congr 1; omega

theorem Adv.refl {P : Kind → Prop} {t : Bytes} : {r : Reader} → Rep P r t → Adv P t 0 r r
  | .device _ _, h => ⟨h, Nat.le_refl _⟩
  | .take _ r, h => ⟨rfl, Adv.refl (r := r) h⟩

theorem Adv.trans {P : Kind → Prop} {t : Bytes} {j k : Nat} : {r r' r'' : Reader} →
    Adv P t j r r' → Adv P (t.drop j) k r' r'' → Adv P t (j + k) r r''
  | .device _ _, .device _ _, .device _ _, h, h' => by
    refine ⟨by simpa only [List.drop_drop] using h'.1, ?_⟩
    have := h.2
    have := h'.2
    omega
  | .take _ r, .take _ r', .take _ r'', h, h' =>
    ⟨by have := h.1; have := h'.1; omega, Adv.trans (r := r) (r' := r') (r'' := r'') h.2 h'.2⟩
  | .device _ _, .take _ _, _, h, _ => h.elim
  | .take _ _, .device _ _, _, h, _ => h.elim
  | .device _ _, .device _ _, .take _ _, _, h => h.elim
  | .take _ _, .take _ _, .device _ _, _, h => h.elim

theorem Adv.inner {P : Kind → Prop} {t : Bytes} {k n : Nat} {r r' : Reader}
    (h : Adv P t k (.take n r) r') : Adv P t k r r'.inner := by
  cases r' with
  | device _ _ => exact h.elim
  | take _ _ => exact h.2

theorem consume_zero : (r : Reader) → r.consume 0 = r
  | .device _ _ => rfl
  | .take n r => by simp [Reader.consume, consume_zero r]

theorem fillBuf_spec {P : Kind → Prop} {t : Bytes} : (r : Reader) → Rep P r t →
    match r.fillBuf with
    | (.error k, _) => P k
    | (.ok b, r') => b = (view r t).take b.length ∧ (b = [] → view r t = []) ∧
        ∀ j, j ≤ b.length → Adv P t j r (r'.consume j)
  | .device (b :: buf) events, h => by
    obtain ⟨s, rfl, hs⟩ := h
    simp only [Reader.fillBuf, view, List.take_left, reduceCtorEq, false_implies, true_and]
    intro j hj
    refine ⟨⟨s, ?_, hs⟩, ?_⟩
    · rw [List.drop_append_of_le_length hj]
    · simp only [Reader.calls, List.length_drop]; omega
  | .device [] [], h => by
    obtain ⟨s, rfl, hs⟩ := h
    simp only [Represents] at hs
    subst hs
    simp only [Reader.fillBuf, view, List.length_nil, List.take_nil, implies_true,
      Nat.le_zero, forall_eq, consume_zero, true_and]
    exact Adv.refl ⟨[], rfl, rfl⟩
  | .device [] (.data b bs :: events), h => by
    obtain ⟨s, rfl, s', rfl, hs⟩ := h
    simp only [Reader.fillBuf, view, List.take_left, reduceCtorEq, false_implies,
      true_and]
    intro j hj
    refine ⟨⟨s', ?_, hs⟩, ?_⟩
    · rw [List.drop_append_of_le_length hj]
    · simp only [Reader.calls, List.length_drop, List.length_nil, List.map_cons, List.sum_cons,
        List.length_cons] at hj ⊢
      omega
  | .device [] (.fail k :: events), h => by
    obtain ⟨s, rfl, hs⟩ := h
    exact hs.1
  | .take n r, h => by
    have ih := fillBuf_spec r h
    simp only [Reader.fillBuf]
    by_cases hn : n = 0
    · subst hn
      simp only [if_pos, view, List.take_zero, List.length_nil, implies_true, Nat.le_zero, forall_eq,
        consume_zero, true_and]
      exact Adv.refl h
    · simp only [if_neg hn]
      generalize r.fillBuf = x at ih
      obtain ⟨x, r'⟩ := x
      cases x with
      | error k => exact ih
      | ok b =>
        simp only at ih ⊢
        refine ⟨?_, ?_, ?_⟩
        · rw [view, List.length_take]
          conv => lhs; rw [ih.1]
          rw [List.take_take, List.take_take]
          congr 1; omega
        · intro hb
          have : b = [] := by
            rcases List.take_eq_nil_iff.mp hb with h | h
            · exact absurd h hn
            · exact h
          rw [view, ih.2.1 this, List.take_nil]
        · intro j hj
          rw [List.length_take] at hj
          refine ⟨by omega, ?_⟩
          have e : min j n = j := by omega
          rw [e]
          exact ih.2.2 j (by omega)

theorem fillBuf_device_ne (buf : Bytes) (events : List Event) :
    (((Reader.device buf events).fillBuf).1 = .ok [] →
      (Reader.device buf events).fillBuf.2 = .device buf events) := by
  cases buf with
  | cons b buf => simp [Reader.fillBuf]
  | nil => cases events with
    | nil => simp [Reader.fillBuf]
    | cons e events => cases e <;> simp [Reader.fillBuf]

theorem read_spec {P : Kind → Prop} {t : Bytes} : (r : Reader) → (n : Nat) → 0 < n → Rep P r t →
    match r.read n with
    | (.error k, r') => P k ∧ (k = .interrupted → Adv P t 0 r r' ∧ r'.calls < r.calls)
    | (.ok b, r') => b = (view r t).take b.length ∧ b.length ≤ n ∧ Adv P t b.length r r' ∧
        (b = [] → view r t = [])
  | .device buf events, n, hn, h => by
    have hf := fillBuf_spec (.device buf events) h
    simp only [Reader.read]
    cases hx : (Reader.device buf events).fillBuf with
    | mk x r' =>
      rw [hx] at hf
      cases x with
      | ok b =>
        simp only at hf ⊢
        refine ⟨?_, ?_, ?_, ?_⟩
        · conv => lhs; rw [hf.1, List.take_take]
          rw [List.length_take]
        · rw [List.length_take]; omega
        · exact hf.2.2 _ (by rw [List.length_take]; omega)
        · intro hb
          rcases List.take_eq_nil_iff.mp hb with h | h
          · omega
          · exact hf.2.1 h
      | error k =>
        refine ⟨hf, ?_⟩
        rintro rfl
        cases buf with
        | cons b buf => simp [Reader.fillBuf] at hx
        | nil =>
          cases events with
          | nil => simp [Reader.fillBuf] at hx
          | cons e events =>
            cases e with
            | data b bs => simp [Reader.fillBuf] at hx
            | fail k =>
              simp only [Reader.fillBuf, Prod.mk.injEq, Except.error.injEq] at hx
              obtain ⟨rfl, rfl⟩ := hx
              obtain ⟨s, hts, hs⟩ := h
              refine ⟨⟨⟨s, hts, hs.2 rfl⟩, ?_⟩, ?_⟩ <;>
                simp only [Reader.calls, List.length_nil, List.map_cons, List.sum_cons] <;> omega
  | .take l r, n, hn, h => by
    simp only [Reader.read]
    by_cases hl : l = 0
    · subst hl
      simp only [if_pos, view, List.take_zero, List.length_nil, implies_true, Nat.zero_le, true_and]
      exact ⟨Adv.refl h, trivial⟩
    · simp only [if_neg hl]
      have ih := read_spec r (min n l) (by omega) h
      generalize r.read (min n l) = x at ih
      obtain ⟨x, r'⟩ := x
      cases x with
      | error k =>
        simp only at ih ⊢
        exact ⟨ih.1, fun hk => ⟨⟨rfl, (ih.2 hk).1⟩, (ih.2 hk).2⟩⟩
      | ok b =>
        simp only at ih ⊢
        refine ⟨?_, by omega, ⟨by omega, ih.2.2.1⟩, ?_⟩
        · rw [view, List.take_take]
          conv => lhs; rw [ih.1]
          congr 1; omega
        · intro hb
          rw [view, ih.2.2.2 hb, List.take_nil]

/-- `f` on devices does what `g` does on byte lists, unless it meets an error of a kind in `P`. -/
def SimO (P : Kind → Prop) {α : Type} (f : ReadM α) (g : Bytes → Option (α × Bytes)) (r : Reader) :
    Prop :=
  ∀ t, Rep P r t →
    (∃ k, P k ∧ (f r).1 = .error (.io k)) ∨
    match g (view r t) with
    | some (a, s) => (f r).1 = .ok a ∧
        ∃ k, k ≤ (view r t).length ∧ s = (view r t).drop k ∧ Adv P t k r (f r).2
    | none => (f r).1 = .error (.io .unexpectedEof) ∧ Adv P t (view r t).length r (f r).2

theorem readExactLoop_sim {P : Kind → Prop} : (fuel n : Nat) → (r : Reader) → r.calls < fuel →
    SimO P (readExactLoop fuel n) (readExact n) r
  | 0, _, _, h => by omega
  | fuel + 1, n, r, hf => by
    intro t ht
    unfold readExactLoop
    by_cases hn : n = 0
    · subst hn
      right
      simp only [if_pos, readExact, Nat.zero_le, List.take_zero, List.drop_zero, true_and]
      exact ⟨0, Nat.zero_le _, rfl, Adv.refl ht⟩
    simp only [if_neg hn]
    have hs := read_spec r n (by omega) ht
    generalize r.read n = x at hs
    obtain ⟨x, r'⟩ := x
    cases x with
    | error k =>
      simp only at hs
      by_cases hk : k = .interrupted
      · subst hk
        simp only
        obtain ⟨ha, hc⟩ := hs.2 rfl
        have ih := readExactLoop_sim (P := P) fuel n r' (by omega) t (by simpa using ha.rep)
        have hv := ha.view
        simp only [List.drop_zero] at hv
        rw [hv] at ih
        rcases ih with ih | ih
        · exact .inl ih
        · right
          have ha' : ∀ {k : Nat} {r'' : Reader}, Adv P t k r' r'' → Adv P t k r r'' := by
            intro k r'' h
            have := ha.trans (by simpa only [List.drop_zero] using h)
            simpa only [Nat.zero_add] using this
          generalize readExact n (view r t) = y at ih
          cases y with
          | none => exact ⟨ih.1, ha' ih.2⟩
          | some p =>
            obtain ⟨h1, j, h2, h3, h4⟩ := ih
            exact ⟨h1, j, h2, h3, ha' h4⟩
      · left
        refine ⟨k, hs.1, ?_⟩
        cases k <;> simp_all
    | ok b =>
      simp only at hs ⊢
      obtain ⟨hb, hbn, ha, he⟩ := hs
      by_cases hb0 : b.length = 0
      · simp only [if_pos hb0]
        right
        have hb' : b = [] := List.length_eq_zero_iff.mp hb0
        have hv := he hb'
        rw [hb0] at ha
        have : ¬ n ≤ 0 := by omega
        simp only [readExact, hv, List.length_nil, if_neg this]
        exact ⟨trivial, ha⟩
      · simp only [if_neg hb0]
        have hbl : b.length ≤ (view r t).length := by
          have := congrArg List.length hb
          rw [List.length_take] at this
          omega
        have hc := ha.calls
        have ih := readExactLoop_sim (P := P) fuel (n - b.length) r' (by omega) _ ha.rep
        rw [ha.view] at ih
        generalize readExactLoop fuel (n - b.length) r' = y at ih
        obtain ⟨y, r''⟩ := y
        rcases ih with ⟨k, hk, ih⟩ | ih
        · simp only at ih
          subst ih
          exact .inl ⟨k, hk, rfl⟩
        · right
          simp only [readExact, List.length_drop] at ih ⊢
          by_cases hl : n ≤ (view r t).length
          · rw [if_pos (by omega)] at ih
            simp only at ih
            obtain ⟨rfl, j, hj, hd, ha'⟩ := ih
            simp only [if_pos hl]
            have e : b.length + j = n := by
              have := congrArg List.length hd
              simp only [List.length_drop] at this hj
              omega
            refine ⟨?_, n, hl, rfl, ?_⟩
            · congr 1
              conv => lhs; rw [hb]
              simp only [List.length_take]
              rw [← List.drop_take, Nat.min_eq_left hbl]
              conv => lhs; arg 1; rw [show b.length = min b.length n by omega, ← List.take_take]
              rw [List.take_append_drop]
            · rw [← e]; exact ha.trans ha'
          · rw [if_neg (by omega)] at ih
            simp only at ih
            obtain ⟨rfl, ha'⟩ := ih
            simp only [if_neg hl]
            refine ⟨trivial, ?_⟩
            have := ha.trans ha'
            rwa [Nat.add_sub_cancel' hbl] at this

theorem readExactR_sim {P : Kind → Prop} (n : Nat) (r : Reader) : SimO P (readExactR n) (readExact n) r :=
  readExactLoop_sim _ n r (by omega)

/-! ### Runtime functions -/

theorem SimO.step {P : Kind → Prop} {α : Type} {f : ReadM α} {g : Bytes → Option (α × Bytes)}
    {r : Reader} (h : SimO P f g r) {t : Bytes} (ht : Rep P r t) :
    (∃ k r', P k ∧ f r = (.error (.io k), r')) ∨
    (∃ r', g (view r t) = none ∧ f r = (.error (.io .unexpectedEof), r') ∧
      Adv P t (view r t).length r r') ∨
    (∃ a r' k, g (view r t) = some (a, (view r t).drop k) ∧ f r = (.ok a, r') ∧
      k ≤ (view r t).length ∧ Adv P t k r r') := by
  have := h t ht
  generalize f r = x at this ⊢
  obtain ⟨x, r'⟩ := x
  rcases this with ⟨k, hk, e⟩ | this
  · simp only at e; subst e
    exact .inl ⟨k, r', hk, rfl⟩
  · right
    cases hg : g (view r t) with
    | none =>
      rw [hg] at this
      simp only at this
      obtain ⟨rfl, h⟩ := this
      exact .inl ⟨r', rfl, rfl, h⟩
    | some p =>
      rw [hg] at this
      simp only at this
      obtain ⟨rfl, k, h1, h2, h3⟩ := this
      exact .inr ⟨p.1, r', k, by rw [← h2], rfl, h1, h3⟩

theorem SimO.intro {P : Kind → Prop} {α : Type} {f : ReadM α} {g : Bytes → Option (α × Bytes)}
    {r : Reader} (h : ∀ t, Rep P r t →
      (∃ k r', P k ∧ f r = (.error (.io k), r')) ∨
      (∃ r', g (view r t) = none ∧ f r = (.error (.io .unexpectedEof), r') ∧
        Adv P t (view r t).length r r') ∨
      (∃ a r' k, g (view r t) = some (a, (view r t).drop k) ∧ f r = (.ok a, r') ∧
        k ≤ (view r t).length ∧ Adv P t k r r')) : SimO P f g r := by
  intro t ht
  rcases h t ht with ⟨k, r', hk, e⟩ | ⟨r', e1, e2, ha⟩ | ⟨a, r', k, e1, e2, hk, ha⟩
  · exact .inl ⟨k, hk, by rw [e]⟩
  · right; rw [e1, e2]; exact ⟨rfl, ha⟩
  · right; rw [e1, e2]; exact ⟨rfl, k, hk, rfl, ha⟩

theorem readExact_none {n : Nat} {s : Bytes} (h : readExact n s = none) : s.length < n := by
  unfold readExact at h
  split at h
  · cases h
  · omega

theorem readExact_some {n : Nat} {s b s' : Bytes} (h : readExact n s = some (b, s')) :
    n ≤ s.length ∧ b = s.take n ∧ s' = s.drop n := by
  unfold readExact at h
  split at h
  · simp only [Option.some.injEq, Prod.mk.injEq] at h
    exact ⟨by assumption, h.1.symm, h.2.symm⟩
  · cases h

theorem drop_length_eq {s : Bytes} {j k : Nat} (h : s.drop j = s.drop k) (hj : j ≤ s.length)
    (hk : k ≤ s.length) : j = k := by
  have := congrArg List.length h
  simp only [List.length_drop] at this
  omega

theorem deserializeVarintR_sim {P : Kind → Prop} (r : Reader) :
    SimO P deserializeVarintR deserializeVarint r := by
  apply SimO.intro
  intro t ht
  unfold deserializeVarintR
  rcases (readExactR_sim (P := P) 1 r).step ht with ⟨k, r', hk, e⟩ | ⟨r', e1, e2, ha⟩ |
    ⟨b, r', k, e1, e2, hk, ha⟩
  · left; exact ⟨k, r', hk, by rw [e]⟩
  · right; left
    have := readExact_none e1
    have hv : view r t = [] := List.length_eq_zero_iff.mp (by omega)
    exact ⟨r', by rw [hv]; rfl, by rw [e2], ha⟩
  · have h1 := readExact_some e1
    have hk1 : k = 1 := drop_length_eq h1.2.2 hk h1.1
    subst hk1
    rw [e2]
    simp only
    cases hv : view r t with
    | nil => rw [hv] at hk; simp at hk
    | cons first s =>
      have hb : b = [first] := by rw [h1.2.1, hv]; rfl
      subst hb
      simp only [List.headD_cons]
      have hv' := ha.view
      rw [hv, List.drop_succ_cons, List.drop_zero] at hv'
      rcases (readExactR_sim (P := P) (trailingZeros first) r').step ha.rep with
        ⟨k, r'', hk, e⟩ | ⟨r'', e1, e2, ha'⟩ | ⟨b, r'', k, e1, e2, hk, ha'⟩
      · left; exact ⟨k, r'', hk, by rw [e]⟩
      · right; left
        rw [hv'] at e1 ha'
        refine ⟨r'', ?_, by rw [e2], ?_⟩
        · simp only [deserializeVarint, e1]
        · have := ha.trans ha'
          rwa [Nat.add_comm] at this
      · right; right
        rw [hv'] at e1 hk
        rw [e2]
        have ha2 := ha.trans ha'
        have hk2 : 1 + k ≤ (first :: s).length := by rw [List.length_cons]; omega
        have hd : List.drop (1 + k) (first :: s) = s.drop k := by
          rw [Nat.add_comm, List.drop_succ_cons]
        simp only [deserializeVarint, e1]
        rw [show s.drop k = List.drop (1 + k) (first :: s) from hd.symm]
        generalize trailingZeros first = z
        rcases z with _|_|_|_|_|_|_|_|z <;> exact ⟨_, _, _, rfl, rfl, hk2, ha2⟩

theorem deserializeVarint_drop {s : Bytes} {v : UInt64} {k : Nat}
    (h : deserializeVarint s = some (v, s.drop k)) (hk : k ≤ s.length) : 0 < k := by
  have := (deserializeVarint_suffix h).2
  simp only [List.length_drop] at this
  omega

theorem headerR_sim {P : Kind → Prop} (r : Reader) :
    SimO P deserializeFieldHeaderR
      (fun s => match deserializeFieldHeader s with
        | none => none
        | some (i, n, s) => some ((i, n), s)) r := by
  apply SimO.intro
  intro t ht
  unfold deserializeFieldHeaderR
  rcases (deserializeVarintR_sim (P := P) r).step ht with ⟨k, r', hk, e⟩ | ⟨r', e1, e2, ha⟩ |
    ⟨tag, r', k, e1, e2, hk, ha⟩
  · left; exact ⟨k, r', hk, by rw [e]⟩
  · right; left; exact ⟨r', by simp only [deserializeFieldHeader, e1], by rw [e2], ha⟩
  · rw [e2]
    have hv := ha.view
    simp only [deserializeFieldHeader, e1]
    by_cases h0 : tag &&& 0b11 = 0b00
    · right; right
      simp only [if_pos h0]
      exact ⟨_, _, k, rfl, rfl, hk, ha⟩
    simp only [if_neg h0]
    by_cases h1 : tag &&& 0b11 = 0b01
    · right; right
      simp only [if_pos h1]
      exact ⟨_, _, k, rfl, rfl, hk, ha⟩
    simp only [if_neg h1]
    by_cases h2 : tag &&& 0b11 = 0b10
    · simp only [if_pos h2]
      have hf := fillBuf_spec r' ha.rep
      rw [hv] at hf
      generalize r'.fillBuf = x at hf
      obtain ⟨x, r''⟩ := x
      cases x with
      | error k => left; exact ⟨k, r'', hf, rfl⟩
      | ok b =>
        simp only at hf
        obtain ⟨hb, he, hadv⟩ := hf
        have ha0 := hadv 0 (Nat.zero_le _)
        rw [consume_zero] at ha0
        have ha2 := ha.trans ha0
        rw [Nat.add_zero] at ha2
        cases b with
        | nil =>
          right; left
          have hn := he rfl
          rw [hn]
          refine ⟨r'', rfl, rfl, ?_⟩
          have : k = (view r t).length := by
            have := congrArg List.length hn
            simp only [List.length_drop, List.length_nil] at this
            omega
          rwa [← this]
        | cons b bs =>
          right; right
          cases hd : (view r t).drop k with
          | nil => rw [hd] at hb; simp at hb
          | cons b' s' =>
            rw [hd] at hb
            simp only [List.length_cons, List.take_succ_cons, List.cons.injEq] at hb
            obtain ⟨rfl, -⟩ := hb
            exact ⟨_, _, k, by rw [hd], rfl, hk, ha2⟩
    · simp only [if_neg h2]
      rcases (deserializeVarintR_sim (P := P) r').step ha.rep with ⟨k, r'', hk, e⟩ |
        ⟨r'', e1, e2, ha'⟩ | ⟨n, r'', j, e1, e2, hj, ha'⟩
      · left; exact ⟨k, r'', hk, by rw [e]⟩
      · rw [hv] at e1 ha'
        right; left
        rw [e1, e2]
        refine ⟨r'', rfl, rfl, ?_⟩
        have := ha.trans ha'
        rwa [List.length_drop, Nat.add_sub_cancel' hk] at this
      · rw [hv] at e1 hj
        right; right
        rw [e1, e2]
        refine ⟨_, _, k + j, ?_, rfl, ?_, ha.trans ha'⟩
        · simp only [List.drop_drop]
        · rw [List.length_drop] at hj; omega

theorem skipLoop_sim {P : Kind → Prop} {t : Bytes} : (fuel n : Nat) → (r : Reader) → r.calls < fuel →
    Rep P r t →
    (∃ k r', P k ∧ skipLoop fuel n r = (.error (.io k), r')) ∨
    (∃ r', (view r t).length < n ∧ skipLoop fuel n r = (.error .hang, r')) ∨
    (∃ r', n ≤ (view r t).length ∧ skipLoop fuel n r = (.ok (), r') ∧ Adv P t n r r')
  | 0, _, _, h, _ => by omega
  | fuel + 1, n, r, hf, ht => by
    unfold skipLoop
    by_cases hn : n = 0
    · subst hn
      simp only [if_pos]
      exact .inr (.inr ⟨r, Nat.zero_le _, rfl, Adv.refl ht⟩)
    simp only [if_neg hn]
    have hs := fillBuf_spec r ht
    generalize r.fillBuf = x at hs
    obtain ⟨x, r'⟩ := x
    cases x with
    | error k => exact .inl ⟨k, r', hs, rfl⟩
    | ok b =>
      simp only at hs
      obtain ⟨hb, he, hadv⟩ := hs
      cases b with
      | nil =>
        right; left
        rw [he rfl]
        exact ⟨r', by rw [List.length_nil]; omega, rfl⟩
      | cons b bs =>
        simp only
        have ha := hadv (min (b :: bs).length n) (by omega)
        have hpos : 0 < min (b :: bs).length n := by rw [List.length_cons]; omega
        have hbl : (b :: bs).length ≤ (view r t).length := by
          have := congrArg List.length hb
          rw [List.length_take] at this
          omega
        have hjn : min (b :: bs).length n ≤ n := by omega
        have hjl : min (b :: bs).length n ≤ (view r t).length := by omega
        generalize min (b :: bs).length n = j at ha hpos hjn hjl
        have hc := ha.calls
        have := skipLoop_sim (P := P) (t := t.drop j) fuel (n - j) _ (by omega) ha.rep
        rw [ha.view, List.length_drop] at this
        rcases this with h | ⟨r'', h1, h2⟩ | ⟨r'', h1, h2, h3⟩
        · exact .inl h
        · exact .inr (.inl ⟨r'', by omega, h2⟩)
        · refine .inr (.inr ⟨r'', by omega, h2, ?_⟩)
          have := ha.trans h3
          rwa [Nat.add_sub_cancel' hjn] at this

theorem finishLoop_sim {P : Kind → Prop} {t : Bytes} : (fuel : Nat) → (r : Reader) → r.calls < fuel →
    Rep P r t →
    (∃ k r', P k ∧ finishLoop fuel r = (.error (.io k), r')) ∨
    (∃ r', finishLoop fuel r = (.ok (), r') ∧ Adv P t (view r t).length r r')
  | 0, _, h, _ => by omega
  | fuel + 1, r, hf, ht => by
    unfold finishLoop
    have hs := fillBuf_spec r ht
    generalize r.fillBuf = x at hs
    obtain ⟨x, r'⟩ := x
    cases x with
    | error k => exact .inl ⟨k, r', hs, rfl⟩
    | ok b =>
      simp only at hs
      obtain ⟨hb, he, hadv⟩ := hs
      cases b with
      | nil =>
        right
        have := hadv 0 (Nat.zero_le _)
        rw [consume_zero] at this
        rw [he rfl]
        exact ⟨r', rfl, this⟩
      | cons b bs =>
        simp only
        have ha := hadv (b :: bs).length (Nat.le_refl _)
        have hbl : (b :: bs).length ≤ (view r t).length := by
          have := congrArg List.length hb
          rw [List.length_take] at this
          omega
        have hpos : 0 < (b :: bs).length := by simp
        generalize (b :: bs).length = j at ha hbl hpos
        have hc := ha.calls
        have := finishLoop_sim (P := P) (t := t.drop j) fuel _ (by omega) ha.rep
        rw [ha.view, List.length_drop] at this
        rcases this with h | ⟨r'', h2, h3⟩
        · exact .inl h
        · refine .inr ⟨r'', h2, ?_⟩
          have := ha.trans h3
          rwa [Nat.add_sub_cancel' hbl] at this

theorem readToEndLoop_sim {P : Kind → Prop} {t : Bytes} (chunk : Nat) (hchunk : 0 < chunk) :
    (fuel : Nat) → (r : Reader) → r.calls < fuel → Rep P r t →
    (∃ k r', P k ∧ readToEndLoop chunk fuel r = (.error (.io k), r')) ∨
    (∃ r', readToEndLoop chunk fuel r = (.ok (view r t), r') ∧ Adv P t (view r t).length r r')
  | 0, _, h, _ => by omega
  | fuel + 1, r, hf, ht => by
    unfold readToEndLoop
    have hs := read_spec r chunk hchunk ht
    generalize r.read chunk = x at hs
    obtain ⟨x, r'⟩ := x
    cases x with
    | error k =>
      simp only at hs
      by_cases hk : k = .interrupted
      · subst hk
        simp only
        obtain ⟨ha, hc⟩ := hs.2 rfl
        have := readToEndLoop_sim (P := P) (t := t) chunk hchunk fuel r' (by omega)
          (by simpa using ha.rep)
        have hv := ha.view
        simp only [List.drop_zero] at hv
        rw [hv] at this
        rcases this with h | ⟨r'', h2, h3⟩
        · exact .inl h
        · refine .inr ⟨r'', h2, ?_⟩
          have := ha.trans (by simpa only [List.drop_zero] using h3)
          rwa [Nat.zero_add] at this
      · left
        refine ⟨k, r', hs.1, ?_⟩
        cases k <;> simp_all
    | ok b =>
      simp only at hs ⊢
      obtain ⟨hb, hbn, ha, he⟩ := hs
      by_cases hb0 : b.length = 0
      · simp only [if_pos hb0]
        right
        have hb' : b = [] := List.length_eq_zero_iff.mp hb0
        have hv := he hb'
        rw [hb0] at ha
        rw [hv]
        exact ⟨r', rfl, ha⟩
      · simp only [if_neg hb0]
        have hbl : b.length ≤ (view r t).length := by
          have := congrArg List.length hb
          rw [List.length_take] at this
          omega
        have hc := ha.calls
        have := readToEndLoop_sim (P := P) (t := t.drop b.length) chunk hchunk fuel r' (by omega) ha.rep
        rw [ha.view] at this
        rcases this with ⟨k, r'', hk, h⟩ | ⟨r'', h2, h3⟩
        · rw [h]; exact .inl ⟨k, r'', hk, rfl⟩
        · rw [h2]
          right
          refine ⟨r'', ?_, ?_⟩
          · simp only
            congr 2
            conv => lhs; arg 1; rw [hb]
            rw [List.take_append_drop]
          · have := ha.trans h3
            rwa [List.length_drop, Nat.add_sub_cancel' hbl] at this

/-! ### Deserialisation -/

/-- The error of the byte list model as an I/O error. -/
def Err.toIo : Err → IoErr
  | .eof => .io .unexpectedEof
  | .invalid => .io .invalidData
  | .panic => .panic
  | .hang => .hang
  | .fuel => .fuel

/-- `f` on devices does what `g` does on byte lists, unless it meets an error of a kind in `P`. -/
def Sim (P : Kind → Prop) {α : Type} (f : ReadM α) (g : Bytes → Res α) (r : Reader) : Prop :=
  ∀ t, Rep P r t →
    (∃ k r', P k ∧ f r = (.error (.io k), r')) ∨
    (∃ e r', g (view r t) = .error e ∧ f r = (.error e.toIo, r')) ∨
    (∃ a r' k, g (view r t) = .ok (a, (view r t).drop k) ∧ f r = (.ok a, r') ∧
      k ≤ (view r t).length ∧ Adv P t k r r')

theorem SimO.congr {P : Kind → Prop} {α : Type} {f : ReadM α} {g g' : Bytes → Option (α × Bytes)}
    {r : Reader} (h : SimO P f g r) (hg : ∀ s, g' s = g s) : SimO P f g' r := by
  have : g' = g := funext hg
  rwa [this]

theorem SimO.map {P : Kind → Prop} {α β : Type} {f : ReadM α} {g : Bytes → Option (α × Bytes)}
    {r : Reader} (h : SimO P f g r) (φ : α → β) :
    SimO P (f.map φ) (fun s => match g s with | none => none | some (a, s) => some (φ a, s)) r := by
  apply SimO.intro
  intro t ht
  unfold ReadM.map
  rcases h.step ht with ⟨k, r', hk, e⟩ | ⟨r', e1, e2, ha⟩ | ⟨a, r', k, e1, e2, hk, ha⟩
  · exact .inl ⟨k, r', hk, by rw [e]⟩
  · exact .inr (.inl ⟨r', by rw [e1], by rw [e2], ha⟩)
  · exact .inr (.inr ⟨φ a, r', k, by rw [e1], by rw [e2], hk, ha⟩)

theorem SimO.sim {P : Kind → Prop} {α : Type} {f : ReadM α} {g : Bytes → Option (α × Bytes)}
    {r : Reader} (h : SimO P f g r) (g' : Bytes → Res α)
    (hg : ∀ s, g' s = match g s with | none => .error .eof | some p => .ok p) : Sim P f g' r := by
  intro t ht
  rcases h.step ht with ⟨k, r', hk, e⟩ | ⟨r', e1, e2, ha⟩ | ⟨a, r', k, e1, e2, hk, ha⟩
  · exact .inl ⟨k, r', hk, e⟩
  · exact .inr (.inl ⟨.eof, r', by rw [hg, e1], e2⟩)
  · exact .inr (.inr ⟨a, r', k, by rw [hg, e1], e2, hk, ha⟩)

theorem Sim.map {P : Kind → Prop} {α β : Type} {f : ReadM α} {g : Bytes → Res α}
    {r : Reader} (h : Sim P f g r) (φ : α → β) (g' : Bytes → Res β)
    (hg : ∀ s, g' s = match g s with | .error e => .error e | .ok (a, s) => .ok (φ a, s)) :
    Sim P (f.map φ) g' r := by
  intro t ht
  unfold ReadM.map
  rcases h t ht with ⟨k, r', hk, e⟩ | ⟨e, r', e1, e2⟩ | ⟨a, r', k, e1, e2, hk, ha⟩
  · exact .inl ⟨k, r', hk, by rw [e]⟩
  · exact .inr (.inl ⟨e, r', by rw [hg, e1], by rw [e2]⟩)
  · exact .inr (.inr ⟨φ a, r', k, by rw [hg, e1], by rw [e2], hk, ha⟩)

theorem Sim.of_ok {P : Kind → Prop} {α : Type} {f : ReadM α} {g : Bytes → Res α} {r : Reader} (a : α)
    (hf : f r = (.ok a, r)) (hg : ∀ s, g s = .ok (a, s)) : Sim P f g r := by
  intro t ht
  exact .inr (.inr ⟨a, r, 0, by rw [hg]; rfl, hf, Nat.zero_le _, Adv.refl ht⟩)

theorem readU64FieldR_sim {P : Kind → Prop} (n : Nat) (r : Reader) :
    Sim P (readU64FieldR n) (readU64Field n) r := by
  by_cases h0 : n = 0
  · subst h0
    exact Sim.of_ok 0 rfl (fun _ => rfl)
  by_cases h8 : n = 8
  · subst h8
    have h := ((readExactR_sim (P := P) 8 r).map fromLeBytes).sim (readU64Field 8) (by
      intro s
      simp only [readU64Field]
      cases readExact 8 s <;> rfl)
    have e : readU64FieldR 8 r = ReadM.map fromLeBytes (readExactR 8) r := by
      unfold readU64FieldR ReadM.map
      simp only
      generalize readExactR 8 r = x
      rcases x with ⟨_ | _, _⟩ <;> rfl
    intro t ht
    have := h t ht
    rw [← e] at this
    exact this
  · have h := (deserializeVarintR_sim (P := P) r).sim (readU64Field n) (by
      intro s
      unfold readU64Field
      split
      · exact absurd rfl h0
      · exact absurd rfl h8
      · cases deserializeVarint s <;> rfl)
    have e : readU64FieldR n r = deserializeVarintR r := by
      unfold readU64FieldR
      split
      · exact absurd rfl h0
      · exact absurd rfl h8
      · rfl
    intro t ht
    have := h t ht
    rw [← e] at this
    exact this

theorem readScalarFieldR_sim {P : Kind → Prop} (n : Nat) (r : Reader) : (sc : Scalar) →
    Sim P (readScalarFieldR sc n) (readScalarField sc n) r
  | .bool => (readU64FieldR_sim n r).map (· != 0) _ (fun s => by
      simp only [readScalarField]; cases readU64Field n s <;> rfl)
  | .s64 => (readU64FieldR_sim n r).map zigzagDecode _ (fun s => by
      simp only [readScalarField]; cases readU64Field n s <;> rfl)
  | .u64 => readU64FieldR_sim n r
  | .f64 => by
    by_cases h0 : n = 0
    · subst h0
      exact Sim.of_ok (0 : UInt64) rfl (fun _ => rfl)
    · have h := ((readExactR_sim (P := P) 8 r).map fromLeBytes).sim (readScalarField .f64 n) (by
        intro s
        simp only [readScalarField, if_neg h0]
        cases readExact 8 s <;> rfl)
      intro t ht
      simp only [readScalarFieldR, if_neg h0]
      exact h t ht

theorem readScalarElemR_sim {P : Kind → Prop} (r : Reader) : (sc : Scalar) →
    SimO P (readScalarElemR sc) (readScalarElem sc) r
  | .bool => ((deserializeVarintR_sim r).map (· != 0)).congr (fun s => by
      simp only [readScalarElem]; cases deserializeVarint s <;> rfl)
  | .s64 => ((deserializeVarintR_sim r).map zigzagDecode).congr (fun s => by
      simp only [readScalarElem]; cases deserializeVarint s <;> rfl)
  | .u64 => deserializeVarintR_sim r
  | .f64 => ((readExactR_sim 8 r).map fromLeBytes).congr (fun s => by
      simp only [readScalarElem]; cases readExact 8 s <;> rfl)

theorem scalarLoopR_sim {P : Kind → Prop} (hP : ¬ P .unexpectedEof) {α : Type} (f : ReadM α)
    (g : Bytes → Option (α × Bytes)) (hfg : ∀ r, SimO P f g r)
    (hg : ∀ s a s', g s = some (a, s') → s'.length < s.length) {t : Bytes} :
    (fuel fuel' : Nat) → (r : Reader) → r.calls < fuel → (view r t).length < fuel' → Rep P r t →
    (∃ k r', P k ∧ scalarLoopR f fuel r = (.error (.io k), r')) ∨
    (∃ e r', scalarLoop g fuel' (view r t) = .error e ∧ scalarLoopR f fuel r = (.error e.toIo, r')) ∨
    (∃ as r', scalarLoop g fuel' (view r t) = .ok as ∧ scalarLoopR f fuel r = (.ok as, r') ∧
      Adv P t (view r t).length r r')
  | 0, _, _, h, _, _ => by omega
  | _ + 1, 0, _, _, h, _ => by omega
  | fuel + 1, fuel' + 1, r, hf, hf', ht => by
    unfold scalarLoopR scalarLoop
    rcases (hfg r).step ht with ⟨k, r', hk, e⟩ | ⟨r', e1, e2, ha⟩ | ⟨a, r', k, e1, e2, hk, ha⟩
    · left
      refine ⟨k, r', hk, ?_⟩
      rw [e]
      cases k <;> first | rfl | exact absurd hk hP
    · right; right
      exact ⟨[], r', by rw [e1], by rw [e2], ha⟩
    · have hlt := hg _ _ _ e1
      rw [List.length_drop] at hlt
      have hc := ha.calls
      have ih := scalarLoopR_sim hP f g hfg hg (t := t.drop k) fuel fuel' r' (by omega)
        (by rw [ha.view, List.length_drop]; omega) ha.rep
      rw [ha.view] at ih
      rw [e1, e2]
      simp only
      rcases ih with ⟨k, r'', hk, e⟩ | ⟨e, r'', e1, e2⟩ | ⟨as, r'', e1, e2, ha'⟩
      · left; rw [e]; exact ⟨k, r'', hk, rfl⟩
      · right; left; rw [e1, e2]; exact ⟨e, r'', rfl, rfl⟩
      · right; right
        rw [e1, e2]
        refine ⟨_, r'', rfl, rfl, ?_⟩
        have := ha.trans ha'
        rwa [List.length_drop, Nat.add_sub_cancel' hk] at this

theorem rest_eq {s : Bytes} {n k : Nat} (h : k ≤ (s.take n).length) :
    (s.take n).drop k ++ s.drop n = s.drop k := by
  rw [List.length_take] at h
  rw [List.drop_take]
  have : s.drop n = (s.drop k).drop (n - k) := by rw [List.drop_drop]; congr 1; omega
  rw [this, List.take_append_drop]

theorem arrayLoopR_sim {P : Kind → Prop} (hP : ¬ P .unexpectedEof) {α : Type} (f : Nat → ReadM α)
    (g : Nat → Bytes → Res α) (hfg : ∀ n r, Sim P (f n) (g n) r) {t : Bytes} :
    (fuel fuel' : Nat) → (r : Reader) → r.calls < fuel → (view r t).length < fuel' → Rep P r t →
    (∃ k r', P k ∧ arrayLoopR f fuel r = (.error (.io k), r')) ∨
    (∃ e r', arrayLoop g fuel' (view r t) = .error e ∧ arrayLoopR f fuel r = (.error e.toIo, r')) ∨
    (∃ as r', arrayLoop g fuel' (view r t) = .ok as ∧ arrayLoopR f fuel r = (.ok as, r') ∧
      Adv P t (view r t).length r r')
  | 0, _, _, h, _, _ => by omega
  | _ + 1, 0, _, _, h, _ => by omega
  | fuel + 1, fuel' + 1, r, hf, hf', ht => by
    unfold arrayLoopR arrayLoop
    rcases (deserializeVarintR_sim (P := P) r).step ht with ⟨k, r', hk, e⟩ | ⟨r', e1, e2, ha⟩ |
      ⟨n, r', k, e1, e2, hk, ha⟩
    · left
      refine ⟨k, r', hk, ?_⟩
      rw [e]
      cases k <;> first | rfl | exact absurd hk hP
    · right; right
      exact ⟨[], r', by rw [e1], by rw [e2], ha⟩
    · have hpos := deserializeVarint_drop e1 hk
      have hc := ha.calls
      rw [e1, e2]
      simp only
      rcases hfg n.toNat (.take n.toNat r') _ ha.rep with ⟨k, r'', hk, e⟩ | ⟨e, r'', e1, e2⟩ |
        ⟨a, r'', j, e1, e2, hj, ha'⟩
      · left; rw [e]; exact ⟨k, _, hk, rfl⟩
      · right; left
        simp only [view, ha.view] at e1
        rw [e1, e2]; exact ⟨e, _, rfl, rfl⟩
      · simp only [view, ha.view] at e1 hj
        rw [e1, e2]
        simp only
        rw [rest_eq hj]
        have ha2 := ha.trans ha'.inner
        have hc' := ha2.calls
        have hl : k + j ≤ (view r t).length := by
          rw [List.length_take, List.length_drop] at hj; omega
        have ih := arrayLoopR_sim hP f g hfg (t := t.drop (k + j)) fuel fuel' r''.inner (by omega)
          (by rw [ha2.view, List.length_drop]; omega) ha2.rep
        rw [ha2.view] at ih
        rw [List.drop_drop]
        rcases ih with ⟨k, r'', hk, e⟩ | ⟨e, r'', e1, e2⟩ | ⟨as, r'', e1, e2, ha3⟩
        · left; rw [e]; exact ⟨k, r'', hk, rfl⟩
        · right; left; rw [e1, e2]; exact ⟨e, r'', rfl, rfl⟩
        · right; right
          rw [e1, e2]
          refine ⟨_, r'', rfl, rfl, ?_⟩
          have := ha2.trans ha3
          rwa [List.length_drop, Nat.add_sub_cancel' hl] at this

/-- The `match index` statements, for devices and byte lists. -/
def SimS (P : Kind → Prop) {α : Type} (f : ReadM (Option α))
    (g : Bytes → Except Err (Option (α × Bytes))) (r : Reader) : Prop :=
  ∀ t, Rep P r t →
    (∃ k r', P k ∧ f r = (.error (.io k), r')) ∨
    (∃ e r', g (view r t) = .error e ∧ f r = (.error e.toIo, r')) ∨
    (g (view r t) = .ok none ∧ f r = (.ok none, r)) ∨
    (∃ a r' k, g (view r t) = .ok (some (a, (view r t).drop k)) ∧ f r = (.ok (some a), r') ∧
      k ≤ (view r t).length ∧ Adv P t k r r')

theorem headerR_step {P : Kind → Prop} {r : Reader} {t : Bytes} (ht : Rep P r t) :
    (∃ k r', P k ∧ deserializeFieldHeaderR r = (.error (.io k), r')) ∨
    (∃ r', deserializeFieldHeader (view r t) = none ∧
      deserializeFieldHeaderR r = (.error (.io .unexpectedEof), r') ∧
      Adv P t (view r t).length r r') ∨
    (∃ i n r' k, deserializeFieldHeader (view r t) = some (i, n, (view r t).drop k) ∧
      deserializeFieldHeaderR r = (.ok (i, n), r') ∧ 0 < k ∧ k ≤ (view r t).length ∧ Adv P t k r r') := by
  rcases (headerR_sim (P := P) r).step ht with h | ⟨r', e1, e2, ha⟩ | ⟨a, r', k, e1, e2, hk, ha⟩
  · exact .inl h
  · refine .inr (.inl ⟨r', ?_, e2, ha⟩)
    cases h : deserializeFieldHeader (view r t) with
    | none => rfl
    | some p => rw [h] at e1; cases e1
  · refine .inr (.inr ⟨a.1, a.2, r', k, ?_, e2, ?_, hk, ha⟩)
    all_goals
      cases h : deserializeFieldHeader (view r t) with
      | none => rw [h] at e1; cases e1
      | some p =>
        obtain ⟨i, n, s⟩ := p
        rw [h] at e1
        simp only [Option.some.injEq, Prod.mk.injEq] at e1
        obtain ⟨rfl, rfl⟩ := e1
        first
        | rfl
        | have := (deserializeFieldHeader_suffix h).2
          rw [List.length_drop] at this
          omega

theorem skip_sub {P : Kind → Prop} {r : Reader} {t : Bytes} {n : Nat} (ht : Rep P r t) :
    (∃ k r', P k ∧ skipR n (.take n r) = (.error (.io k), r')) ∨
    (∃ r', skip n (view r t) = .error .hang ∧ skipR n (.take n r) = (.error .hang, r')) ∨
    (∃ r', skip n (view r t) = .ok ((view r t).drop n) ∧ skipR n (.take n r) = (.ok (), r') ∧
      n ≤ (view r t).length ∧ Adv P t n (.take n r) r') := by
  have := skipLoop_sim (P := P) (t := t) ((Reader.take n r).calls + 1) n (.take n r) (by omega) ht
  simp only [view, List.length_take] at this
  unfold skipR
  rcases this with h | ⟨r', h1, h2⟩ | ⟨r', h1, h2, h3⟩
  · exact .inl h
  · exact .inr (.inl ⟨r', by unfold skip; rw [if_neg (by omega)], h2⟩)
  · exact .inr (.inr ⟨r', by unfold skip; rw [if_pos (by omega)], h2, by omega, h3⟩)

theorem structLoopR_sim {P : Kind → Prop} (hP : ¬ P .unexpectedEof) {σ : Type}
    (f : Nat → Nat → σ → ReadM (Option σ))
    (g : Nat → Nat → Bytes → σ → Except Err (Option (σ × Bytes)))
    (hfg : ∀ i n st r, SimS P (f i n st) (fun s => g i n s st) r) {t : Bytes} :
    (fuel fuel' : Nat) → (st : σ) → (r : Reader) → r.calls < fuel → (view r t).length < fuel' →
    Rep P r t →
    (∃ k r', P k ∧ structLoopR f fuel st r = (.error (.io k), r')) ∨
    (∃ e r', structLoop g fuel' (view r t) st = .error e ∧
      structLoopR f fuel st r = (.error e.toIo, r')) ∨
    (∃ st' r', structLoop g fuel' (view r t) st = .ok st' ∧ structLoopR f fuel st r = (.ok st', r') ∧
      Adv P t (view r t).length r r')
  | 0, _, _, _, h, _, _ => by omega
  | _ + 1, 0, _, _, _, h, _ => by omega
  | fuel + 1, fuel' + 1, st, r, hf, hf', ht => by
    unfold structLoopR structLoop
    rcases headerR_step ht with ⟨k, r', hk, e⟩ | ⟨r', e1, e2, ha⟩ |
      ⟨i, n, r', k, e1, e2, hpos, hk, ha⟩
    · left
      refine ⟨k, r', hk, ?_⟩
      rw [e]
      cases k <;> first | rfl | exact absurd hk hP
    · right; right
      exact ⟨st, r', by rw [e1], by rw [e2], ha⟩
    · have hc := ha.calls
      rw [e1, e2]
      simp only
      have next : ∀ (st : σ) (r'' : Reader) (j : Nat), k + j ≤ (view r t).length →
          Adv P t (k + j) r r'' →
          (∃ k r', P k ∧ structLoopR f fuel st r'' = (.error (.io k), r')) ∨
          (∃ e r', structLoop g fuel' ((view r t).drop (k + j)) st = .error e ∧
            structLoopR f fuel st r'' = (.error e.toIo, r')) ∨
          (∃ st' r', structLoop g fuel' ((view r t).drop (k + j)) st = .ok st' ∧
            structLoopR f fuel st r'' = (.ok st', r') ∧ Adv P t (view r t).length r r') := by
        intro st r'' j hl ha2
        have hc' := ha2.calls
        have ih := structLoopR_sim hP f g hfg (t := t.drop (k + j)) fuel fuel' st r'' (by omega)
          (by rw [ha2.view, List.length_drop]; omega) ha2.rep
        rw [ha2.view] at ih
        rcases ih with h | h | ⟨as, r'', e1, e2, ha3⟩
        · exact .inl h
        · exact .inr (.inl h)
        · right; right
          refine ⟨_, r'', e1, e2, ?_⟩
          have := ha2.trans ha3
          rwa [List.length_drop, Nat.add_sub_cancel' hl] at this
      rcases hfg i n st (.take n r') _ ha.rep with ⟨k, r'', hk, e⟩ | ⟨e, r'', e1, e2⟩ | ⟨e1, e2⟩ |
        ⟨a, r'', j, e1, e2, hj, ha'⟩
      · left; rw [e]; exact ⟨k, _, hk, rfl⟩
      · right; left
        simp only [view, ha.view] at e1
        rw [e1, e2]; exact ⟨e, _, rfl, rfl⟩
      · simp only [view, ha.view] at e1
        rw [e1, e2]
        simp only
        have hs := skip_sub (n := n) ha.rep
        rw [ha.view] at hs
        rcases hs with ⟨k, r'', hk, e⟩ | ⟨r'', e1, e2⟩ | ⟨r'', e1, e2, hn, ha'⟩
        · left; rw [e]; exact ⟨k, _, hk, rfl⟩
        · right; left
          rw [e1, e2]; exact ⟨.hang, _, rfl, rfl⟩
        · rw [e1, e2]
          simp only
          rw [List.drop_drop]
          rw [List.length_drop] at hn
          exact next st r''.inner n (by omega) (ha.trans ha'.inner)
      · simp only [view, ha.view] at e1 hj
        rw [e1, e2]
        simp only
        rw [rest_eq hj, List.drop_drop]
        rw [List.length_take, List.length_drop] at hj
        exact next a r''.inner j (by omega) (ha.trans ha'.inner)

theorem choiceLoopR_sim {P : Kind → Prop} {α β : Type}
    (f : Nat → Nat → ReadM (Option (α ⊕ β)))
    (g : Nat → Nat → Bytes → Except Err (Option ((α ⊕ β) × Bytes)))
    (hfg : ∀ i n r, SimS P (f i n) (g i n) r) {t : Bytes} :
    (fuel fuel' : Nat) → (r : Reader) → r.calls < fuel → (view r t).length < fuel' → Rep P r t →
    (∃ k r', P k ∧ choiceLoopR f fuel r = (.error (.io k), r')) ∨
    (∃ e r', choiceLoop g fuel' (view r t) = .error e ∧ choiceLoopR f fuel r = (.error e.toIo, r')) ∨
    (∃ m r', choiceLoop g fuel' (view r t) = .ok m ∧ choiceLoopR f fuel r = (.ok m, r') ∧
      Adv P t (view r t).length r r')
  | 0, _, _, h, _, _ => by omega
  | _ + 1, 0, _, _, h, _ => by omega
  | fuel + 1, fuel' + 1, r, hf, hf', ht => by
    unfold choiceLoopR choiceLoop
    rcases headerR_step ht with ⟨k, r', hk, e⟩ | ⟨r', e1, e2, ha⟩ |
      ⟨i, n, r', k, e1, e2, hpos, hk, ha⟩
    · left
      exact ⟨k, r', hk, by rw [e]⟩
    · right; left
      exact ⟨.eof, r', by rw [e1], by rw [e2]; rfl⟩
    · have hc := ha.calls
      rw [e1, e2]
      simp only
      have next : ∀ (r'' : Reader) (j : Nat), k + j ≤ (view r t).length →
          Adv P t (k + j) r r'' →
          (∃ k r', P k ∧ choiceLoopR f fuel r'' = (.error (.io k), r')) ∨
          (∃ e r', choiceLoop g fuel' ((view r t).drop (k + j)) = .error e ∧
            choiceLoopR f fuel r'' = (.error e.toIo, r')) ∨
          (∃ m r', choiceLoop g fuel' ((view r t).drop (k + j)) = .ok m ∧
            choiceLoopR f fuel r'' = (.ok m, r') ∧ Adv P t (view r t).length r r') := by
        intro r'' j hl ha2
        have hc' := ha2.calls
        have ih := choiceLoopR_sim f g hfg (t := t.drop (k + j)) fuel fuel' r'' (by omega)
          (by rw [ha2.view, List.length_drop]; omega) ha2.rep
        rw [ha2.view] at ih
        rcases ih with h | h | ⟨as, r'', e1, e2, ha3⟩
        · exact .inl h
        · exact .inr (.inl h)
        · right; right
          refine ⟨_, r'', e1, e2, ?_⟩
          have := ha2.trans ha3
          rwa [List.length_drop, Nat.add_sub_cancel' hl] at this
      rcases hfg i n (.take n r') _ ha.rep with ⟨k, r'', hk, e⟩ | ⟨e, r'', e1, e2⟩ | ⟨e1, e2⟩ |
        ⟨a, r'', j, e1, e2, hj, ha'⟩
      · left; rw [e]; exact ⟨k, _, hk, rfl⟩
      · right; left
        simp only [view, ha.view] at e1
        rw [e1, e2]; exact ⟨e, _, rfl, rfl⟩
      · simp only [view, ha.view] at e1
        rw [e1, e2]
        simp only
        have hs := skip_sub (n := n) ha.rep
        rw [ha.view] at hs
        rcases hs with ⟨k, r'', hk, e⟩ | ⟨r'', e1, e2⟩ | ⟨r'', e1, e2, hn, ha'⟩
        · left; rw [e]; exact ⟨k, _, hk, rfl⟩
        · right; left
          rw [e1, e2]; exact ⟨.hang, _, rfl, rfl⟩
        · rw [e1, e2]
          simp only
          rw [List.drop_drop]
          rw [List.length_drop] at hn
          exact next r''.inner n (by omega) (ha.trans ha'.inner)
      · simp only [view, ha.view] at e1 hj
        rw [e1, e2]
        have ha2 := ha.trans ha'.inner
        rw [List.length_take, List.length_drop] at hj
        have hl : k + j ≤ (view r t).length := by omega
        cases a with
        | inr b =>
          simp only
          have := finishLoop_sim (P := P) (r''.inner.calls + 1) r''.inner (by omega) ha2.rep
          rw [ha2.view] at this
          unfold finishR
          rcases this with ⟨k, r3, hk, e⟩ | ⟨r3, e, ha3⟩
          · left; rw [e]; exact ⟨k, _, hk, rfl⟩
          · right; right
            rw [e]
            refine ⟨_, r3, rfl, rfl, ?_⟩
            have := ha2.trans ha3
            rwa [List.length_drop, Nat.add_sub_cancel' hl] at this
        | inl a =>
          simp only
          rw [rest_eq (by rw [List.length_take, List.length_drop]; omega), List.drop_drop]
          rcases next r''.inner j hl ha2 with ⟨k, r3, hk, e⟩ | ⟨e, r3, e1, e2⟩ | ⟨m, r3, e1, e2, ha3⟩
          · left; rw [e]; exact ⟨k, _, hk, rfl⟩
          · right; left; rw [e1, e2]; exact ⟨e, r3, rfl, rfl⟩
          · right; right; rw [e1, e2]; exact ⟨_, r3, rfl, rfl, ha3⟩

mutual
theorem CTy.deserR_sim {P : Kind → Prop} (hP : ¬ P .unexpectedEof) (lim : Nat) (isField : Bool) :
    (c : CTy) → (n : Nat) → (r : Reader) → Sim P (c.deserR lim isField n) (c.deser lim isField n) r
  | .bytes, n, r => by
    intro t ht
    by_cases hn : n ≤ lim
    · have e1 : CTy.deserR lim isField .bytes n r = readToEndR r := by
        rw [CTy.deserR]; exact if_pos hn
      have e2 : CTy.deser lim isField .bytes n (view r t) = .ok (view r t, []) := by
        rw [CTy.deser]; exact if_pos hn
      rw [e1, e2]
      rcases readToEndLoop_sim (P := P) 32 (by decide) (r.calls + 1) r (by omega) ht with
        h | ⟨r', e, ha⟩
      · exact .inl h
      · right; right
        exact ⟨view r t, r', _, by rw [List.drop_length], e, Nat.le_refl _, ha⟩
    · have e1 : CTy.deserR lim isField .bytes n r = (.error .panic, r) := by
        rw [CTy.deserR]; exact if_neg hn
      have e2 : CTy.deser lim isField .bytes n (view r t) = .error .panic := by
        rw [CTy.deser]; exact if_neg hn
      rw [e1, e2]
      exact .inr (.inl ⟨.panic, r, rfl, rfl⟩)
  | .string, n, r => by
    intro t ht
    by_cases hn : n ≤ lim
    · simp only [CTy.deserR, CTy.deser, if_pos hn]
      rcases readToEndLoop_sim (P := P) 32 (by decide) (r.calls + 1) r (by omega) ht with
        ⟨k, r', hk, e⟩ | ⟨r', e, ha⟩
      · left
        have : readToEndR r = (.error (.io k), r') := e
        rw [this]
        exact ⟨k, r', hk, rfl⟩
      · right
        have : readToEndR r = (.ok (view r t), r') := e
        rw [this]
        simp only
        by_cases hu : validUtf8 (view r t) = true
        · simp only [dif_pos hu]
          exact .inr ⟨_, r', _, by rw [List.drop_length], rfl, Nat.le_refl _, ha⟩
        · simp only [dif_neg hu]
          exact .inl ⟨.invalid, r', rfl, rfl⟩
    · simp only [CTy.deserR, CTy.deser, if_neg hn]
      exact .inr (.inl ⟨.panic, r, rfl, rfl⟩)
  | .units, n, r => by
    cases isField with
    | true => exact readU64FieldR_sim n r
    | false =>
      exact (deserializeVarintR_sim (P := P) r).sim readU64Elem (by
        intro s
        unfold readU64Elem
        cases deserializeVarint s <;> rfl)
  | .scalars sc, n, r => by
    intro t ht
    by_cases hn : sc = .f64 ∧ ¬ 8 * n ≤ lim
    · have e1 : CTy.deserR lim isField (.scalars sc) n r = (.error .panic, r) := by
        rw [CTy.deserR]; exact if_pos hn
      have e2 : CTy.deser lim isField (.scalars sc) n (view r t) = .error .panic := by
        rw [CTy.deser]; exact if_pos hn
      rw [e1, e2]
      exact .inr (.inl ⟨.panic, r, rfl, rfl⟩)
    · have e1 : CTy.deserR lim isField (.scalars sc) n r =
          scalarLoopR (readScalarElemR sc) (r.calls + 1) r := by
        rw [CTy.deserR]; exact if_neg hn
      have e2 : CTy.deser lim isField (.scalars sc) n (view r t) =
          match scalarLoop (readScalarElem sc) ((view r t).length + 1) (view r t) with
          | .error e => .error e
          | .ok as => .ok (as, []) := by
        rw [CTy.deser]; exact if_neg hn
      rw [e1, e2]
      rcases scalarLoopR_sim hP (readScalarElemR sc) (readScalarElem sc)
        (fun r => readScalarElemR_sim r sc) (fun s a s' h => (readScalarElem_length sc s a s' h).2) (t := t)
        (r.calls + 1) ((view r t).length + 1) r (by omega) (by omega) ht with
        h | ⟨e, r', e1, e2⟩ | ⟨as, r', e1, e2, ha⟩
      · exact .inl h
      · exact .inr (.inl ⟨e, r', by rw [e1], e2⟩)
      · exact .inr (.inr ⟨as, r', _, by rw [e1, List.drop_length], e2, Nat.le_refl _, ha⟩)
  | .array c, n, r => by
    intro t ht
    simp only [CTy.deserR, CTy.deser]
    rcases arrayLoopR_sim hP (CTy.deserR lim false c) (CTy.deser lim false c)
      (CTy.deserR_sim hP lim false c) (t := t)
      (r.calls + 1) ((view r t).length + 1) r (by omega) (by omega) ht with
      h | ⟨e, r', e1, e2⟩ | ⟨as, r', e1, e2, ha⟩
    · exact .inl h
    · exact .inr (.inl ⟨e, r', by rw [e1], e2⟩)
    · exact .inr (.inr ⟨as, r', _, by rw [e1, List.drop_length], e2, Nat.le_refl _, ha⟩)
  | .struct fs, n, r => by
    intro t ht
    simp only [CTy.deserR, CTy.deser]
    rcases structLoopR_sim hP (Fields.stepR lim fs) (Fields.step lim fs)
      (Fields.stepR_sim hP lim fs) (t := t)
      (r.calls + 1) ((view r t).length + 1) fs.emptySlots r (by omega) (by omega) ht with
      ⟨k, r', hk, e⟩ | ⟨e, r', e1, e2⟩ | ⟨st, r', e1, e2, ha⟩
    · left; rw [e]; exact ⟨k, r', hk, rfl⟩
    · right; left; rw [e1, e2]; exact ⟨e, r', rfl, rfl⟩
    · right
      rw [e1, e2]
      simp only
      cases fs.finish st with
      | none => exact .inl ⟨.invalid, r', rfl, rfl⟩
      | some m => exact .inr ⟨m, r', _, by rw [List.drop_length], rfl, Nat.le_refl _, ha⟩
  | .choice fs, n, r => by
    intro t ht
    simp only [CTy.deserR, CTy.deser]
    rcases choiceLoopR_sim (Fields.selectR lim fs) (Fields.select lim fs)
      (Fields.selectR_sim hP lim fs) (t := t)
      (r.calls + 1) ((view r t).length + 1) r (by omega) (by omega) ht with
      h | ⟨e, r', e1, e2⟩ | ⟨m, r', e1, e2, ha⟩
    · exact .inl h
    · exact .inr (.inl ⟨e, r', by rw [e1], e2⟩)
    · exact .inr (.inr ⟨m, r', _, by rw [e1, List.drop_length], e2, Nat.le_refl _, ha⟩)

theorem Ty.deserR_sim {P : Kind → Prop} (hP : ¬ P .unexpectedEof) (lim : Nat) :
    (t : Ty) → (n : Nat) → (r : Reader) → Sim P (t.deserR lim n) (t.deser lim n) r
  | .unit, n, r => Sim.of_ok () rfl (fun _ => rfl)
  | .scalar sc, n, r => readScalarFieldR_sim n r sc
  | .comp c, n, r => CTy.deserR_sim hP lim true c n r

theorem Fields.stepR_sim {P : Kind → Prop} (hP : ¬ P .unexpectedEof) (lim : Nat) :
    (fs : Fields) → (i n : Nat) → (st : fs.Slots) → (r : Reader) →
    SimS P (fs.stepR lim i n st) (fun s => fs.step lim i n s st) r
  | .nil, i, n, st, r => fun t _ => .inr (.inr (.inl ⟨rfl, rfl⟩))
  | .cons j rule ty rest, i, n, (o, os), r => by
    intro t ht
    simp only [Fields.stepR, Fields.step]
    by_cases hi : i = j
    · simp only [if_pos hi]
      rcases Ty.deserR_sim hP lim ty n r t ht with ⟨k, r', hk, e⟩ | ⟨e, r', e1, e2⟩ |
        ⟨a, r', k, e1, e2, hk, ha⟩
      · left; rw [e]; exact ⟨k, r', hk, rfl⟩
      · right; left; rw [e1, e2]; exact ⟨e, r', rfl, rfl⟩
      · right; right; right
        rw [e1, e2]
        exact ⟨_, r', k, rfl, rfl, hk, ha⟩
    · simp only [if_neg hi]
      have ih := Fields.stepR_sim hP lim rest i n os r t ht
      simp only at ih
      rcases ih with ⟨k, r', hk, e⟩ | ⟨e, r', e1, e2⟩ |
        ⟨e1, e2⟩ | ⟨a, r', k, e1, e2, hk, ha⟩
      · left; rw [e]; exact ⟨k, r', hk, rfl⟩
      · right; left; rw [e1, e2]; exact ⟨e, r', rfl, rfl⟩
      · right; right; left; rw [e1, e2]; exact ⟨rfl, rfl⟩
      · right; right; right
        rw [e1, e2]
        exact ⟨_, r', k, rfl, rfl, hk, ha⟩

theorem Fields.selectR_sim {P : Kind → Prop} (hP : ¬ P .unexpectedEof) (lim : Nat) :
    (fs : Fields) → (i n : Nat) → (r : Reader) →
    SimS P (fs.selectR lim i n) (fs.select lim i n) r
  | .nil, i, n, r => fun t _ => .inr (.inr (.inl ⟨rfl, rfl⟩))
  | .cons j rule ty rest, i, n, r => by
    intro t ht
    simp only [Fields.selectR, Fields.select]
    by_cases hi : i = j
    · simp only [if_pos hi]
      rcases Ty.deserR_sim hP lim ty n r t ht with ⟨k, r', hk, e⟩ | ⟨e, r', e1, e2⟩ |
        ⟨a, r', k, e1, e2, hk, ha⟩
      · left; rw [e]; exact ⟨k, r', hk, rfl⟩
      · right; left; rw [e1, e2]; exact ⟨e, r', rfl, rfl⟩
      · right; right; right
        rw [e1, e2]
        simp only
        by_cases hr : rule.hasFallback .inn = true
        · simp only [dif_pos hr]
          exact ⟨_, r', k, rfl, rfl, hk, ha⟩
        · simp only [dif_neg hr]
          exact ⟨_, r', k, rfl, rfl, hk, ha⟩
    · simp only [if_neg hi]
      rcases Fields.selectR_sim hP lim rest i n r t ht with ⟨k, r', hk, e⟩ | ⟨e, r', e1, e2⟩ |
        ⟨e1, e2⟩ | ⟨a, r', k, e1, e2, hk, ha⟩
      · left; rw [e]; exact ⟨k, r', hk, rfl⟩
      · right; left; rw [e1, e2]; exact ⟨e, r', rfl, rfl⟩
      · right; right; left; rw [e1, e2]; exact ⟨rfl, rfl⟩
      · right; right; right
        rw [e1, e2]
        cases a with
        | inl a => exact ⟨_, r', k, rfl, rfl, hk, ha⟩
        | inr a => exact ⟨_, r', k, rfl, rfl, hk, ha⟩
end

end Typical
