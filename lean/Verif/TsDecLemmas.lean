import Verif.TsLemmas
import Verif.ReadLemmas

/-!
# Helper lemmas: the TypeScript decoder reads what the specification says

Main result: `cDeser_wire`.
-/

namespace Typical.Ts
open Spec

/-! ### Views -/

/-- The bytes of the view from the offset on are `s`. -/
def Holds (v : View) (off : Nat) (s : Bytes) : Prop :=
  v.base + v.len ≤ v.buf.length ∧ off + s.length = v.len ∧ (v.buf.drop (v.base + off)).take s.length = s

theorem holds_whole (s : Bytes) : Holds ⟨s, 0, s.length⟩ 0 s := by
  refine ⟨by simp, by simp, by simp⟩

/-- A part of a buffer. -/
theorem holds_part (pre s post : Bytes) : Holds ⟨pre ++ s ++ post, pre.length, s.length⟩ 0 s := by
  refine ⟨by simp, by simp, ?_⟩
  simp

theorem Holds.append {v : View} {off : Nat} {p q : Bytes} (h : Holds v off (p ++ q)) :
    Holds v (off + p.length) q := by
  obtain ⟨h1, h2, h3⟩ := h
  rw [List.length_append] at h2 h3
  refine ⟨h1, by omega, ?_⟩
  have := congrArg (List.drop p.length) h3
  rw [List.drop_left, List.drop_take, List.drop_drop] at this
  rw [Nat.add_sub_cancel_left] at this
  rw [← Nat.add_assoc]
  exact this

theorem Holds.take {v : View} {off : Nat} {p q : Bytes} (h : Holds v off (p ++ q)) :
    (v.buf.drop (v.base + off)).take p.length = p := by
  obtain ⟨h1, h2, h3⟩ := h
  rw [List.length_append] at h2 h3
  have := congrArg (List.take p.length) h3
  rw [List.take_left, List.take_take] at this
  rw [Nat.min_eq_left (by omega)] at this
  exact this

/-- The view of a part. -/
theorem Holds.new {v : View} {off : Nat} {p q : Bytes} (h : Holds v off (p ++ q)) :
    View.new v.buf (v.base + off) p.length = some ⟨v.buf, v.base + off, p.length⟩ ∧
      Holds ⟨v.buf, v.base + off, p.length⟩ 0 p := by
  have ht := h.take
  obtain ⟨h1, h2, h3⟩ := h
  rw [List.length_append] at h2
  refine ⟨if_pos (by omega), ?_, by simp, ?_⟩
  · show v.base + off + p.length ≤ v.buf.length; omega
  · exact ht

theorem Holds.cons {v : View} {off : Nat} {b : UInt8} {s : Bytes} (h : Holds v off (b :: s)) :
    v.getUint8 off = some b ∧ Holds v (off + 1) s := by
  have h' : Holds v off ([b] ++ s) := h
  refine ⟨?_, h'.append⟩
  have ht := h'.take
  obtain ⟨h1, h2, h3⟩ := h
  rw [List.length_cons] at h2
  unfold View.getUint8
  rw [if_pos (by omega)]
  have : (v.buf.drop (v.base + off))[0]? = some b := by
    have e := congrArg (fun l => l[0]?) ht
    simpa using e
  simpa using this

theorem Holds.nil {v : View} {off : Nat} (h : Holds v off []) : v.getUint8 off = none := by
  obtain ⟨h1, h2, h3⟩ := h
  simp only [List.length_nil] at h2
  unfold View.getUint8
  rw [if_neg (by omega)]

theorem Holds.getBytes {v : View} : ∀ (n off : Nat) (s : Bytes), Holds v off s →
    v.getBytes off n = if n ≤ s.length then some (s.take n) else none
  | 0, off, s, h => by simp [View.getBytes]
  | n + 1, off, [], h => by
    simp [View.getBytes, h.nil]
  | n + 1, off, b :: s, h => by
    have ih := Holds.getBytes n (off + 1) s h.cons.2
    unfold View.getBytes
    rw [h.cons.1, ih]
    by_cases hn : n ≤ s.length
    · simp [hn]
    · simp [hn]

/-! ### Integers -/

theorem trailingZeros_ts (b : UInt8) : trailingZerosLoop 8 b.toNat = trailingZeros b := by
  have table : ∀ n < 256, trailingZerosLoop 8 n = trailingZeros (UInt8.ofNat n) := by decide +kernel
  have := table b.toNat b.toNat_lt
  simpa using this

theorem varintSizeFromFirstByte_eq (b : UInt8) :
    varintSizeFromFirstByte b = Typical.varintSizeFromFirstByte b := by
  unfold varintSizeFromFirstByte Typical.varintSizeFromFirstByte
  rw [trailingZeros_ts]

theorem leValue_eq (s : Bytes) : leValue s = leNat s := by
  induction s with
  | nil => rfl
  | cons b s ih => simp only [leValue, leNat, ih]

theorem shl_eq (a k : Nat) : a <<< k = a * 2 ^ k := Nat.shiftLeft_eq a k
theorem shr_eq (a k : Nat) : a >>> k = a / 2 ^ k := Nat.shiftRight_eq_div_pow a k

theorem deserializeVarint_holds {v : View} {off : Nat} {s : Bytes} (h : Holds v off s) :
    deserializeVarint v off =
      (Typical.deserializeVarint s).map (fun p => (off + (s.length - p.2.length), p.1.toNat)) := by
  cases s with
  | nil => simp [deserializeVarint, h.nil, Typical.deserializeVarint]
  | cons b s =>
    have hb := b.toNat_lt
    have hle := trailingZeros_le b
    rw [deserializeVarint_cons]
    unfold deserializeVarint
    rw [h.cons.1]
    have e : varintSizeFromFirstByte b - 1 = trailingZeros b := by
      unfold varintSizeFromFirstByte; rw [trailingZeros_ts]; omega
    simp only [e]
    rw [Holds.getBytes _ _ s h.cons.2]
    by_cases hs : trailingZeros b ≤ s.length
    · rw [if_pos hs, if_pos hs]
      simp only [Option.map_some, List.length_cons, List.length_drop, leValue_eq]
      have hl : (s.take (trailingZeros b)).length = trailingZeros b := by simp; omega
      have hlt := leNat_lt (s.take (trailingZeros b))
      rw [hl] at hlt
      have hoff : off + (s.length + 1 - (s.length - trailingZeros b)) = off + (trailingZeros b + 1) := by omega
      rw [hoff]
      generalize List.take (trailingZeros b) s = r at *
      simp only [UInt64.toNat_ofNat', decodeNat, shl_eq, shr_eq]
      generalize trailingZeros b = t at *
      match t, hle with
      | 0, _ => simp only [Nat.reducePow, Nat.reduceAdd]; refine congrArg some (Prod.ext ?_ ?_) <;> dsimp only <;> omega
      | 1, _ => simp only [Nat.reducePow, Nat.reduceAdd]; refine congrArg some (Prod.ext ?_ ?_) <;> dsimp only <;> omega
      | 2, _ => simp only [Nat.reducePow, Nat.reduceAdd]; refine congrArg some (Prod.ext ?_ ?_) <;> dsimp only <;> omega
      | 3, _ => simp only [Nat.reducePow, Nat.reduceAdd]; refine congrArg some (Prod.ext ?_ ?_) <;> dsimp only <;> omega
      | 4, _ => simp only [Nat.reducePow, Nat.reduceAdd]; refine congrArg some (Prod.ext ?_ ?_) <;> dsimp only <;> omega
      | 5, _ => simp only [Nat.reducePow, Nat.reduceAdd]; refine congrArg some (Prod.ext ?_ ?_) <;> dsimp only <;> omega
      | 6, _ => simp only [Nat.reducePow, Nat.reduceAdd]; refine congrArg some (Prod.ext ?_ ?_) <;> dsimp only <;> omega
      | 7, _ => simp only [Nat.reducePow, Nat.reduceAdd]; refine congrArg some (Prod.ext ?_ ?_) <;> dsimp only <;> omega
      | 8, _ => simp only [Nat.reducePow, Nat.reduceAdd]
    · rw [if_neg hs, if_neg hs]; rfl

/-- The offset after a read which leaves the suffix `r`. -/
theorem Holds.suffix {v : View} {off : Nat} {s r : Bytes} (h : Holds v off s) (hr : r <:+ s) :
    Holds v (off + (s.length - r.length)) r := by
  obtain ⟨p, rfl⟩ := hr
  have := h.append
  rw [List.length_append, Nat.add_sub_cancel]
  exact this

theorem deserializeVarint_wire {v : View} {off n : Nat} {rest : Bytes} (hn : n < 2 ^ 64)
    (h : Holds v off (varintBytes n ++ rest)) :
    deserializeVarint v off = some (off + (varintBytes n).length, n) ∧
      Holds v (off + (varintBytes n).length) rest := by
  rw [deserializeVarint_holds h, deserializeVarint_varintBytes hn]
  refine ⟨?_, h.append⟩
  simp only [Option.map_some, List.length_append, Nat.add_sub_cancel, UInt64.toNat_ofNat_of_lt' hn]

theorem and3 (n : Nat) : n &&& 3 = n % 4 := Nat.and_two_pow_sub_one_eq_mod n 2

theorem deserializeFieldHeader_holds {v : View} {off : Nat} {s : Bytes} (h : Holds v off s)
    (hsuf : ∀ {s r x}, Typical.deserializeVarint s = some (x, r) → r <:+ s) :
    deserializeFieldHeader v off =
      (Typical.deserializeFieldHeader s).map (fun p => (off + (s.length - p.2.2.length), p.1, p.2.1)) := by
  unfold deserializeFieldHeader Typical.deserializeFieldHeader
  rw [deserializeVarint_holds h]
  cases hd : Typical.deserializeVarint s with
  | none => rfl
  | some p =>
    obtain ⟨tag, r⟩ := p
    have hr := h.suffix (hsuf hd)
    simp only [Option.map_some]
    have ht : (tag >>> 2).toNat = tag.toNat >>> 2 := by
      rw [UInt64.toNat_shiftRight]; rfl
    have ha : (tag &&& 3).toNat = tag.toNat &&& 3 := by
      rw [UInt64.toNat_and]; rfl
    have heq : ∀ k : UInt64, (tag &&& 3 = k) = (tag.toNat &&& 3 = k.toNat) := by
      intro k; rw [← UInt64.toNat_inj, ha]
    simp only [heq, ht]
    have h4 : tag.toNat &&& 3 < 4 := by rw [and3]; omega
    generalize tag.toNat &&& 3 = m at *
    match m, h4 with
    | 0, _ => simp
    | 1, _ => simp
    | 2, _ =>
      simp only [UInt64.reduceToNat, Nat.reduceEqDiff, if_false, if_true]
      cases r with
      | nil => rw [hr.nil]; rfl
      | cons b r =>
        rw [hr.cons.1]
        simp only [varintSizeFromFirstByte_eq, Option.map_some]
    | 3, _ =>
      simp only [UInt64.reduceToNat, Nat.reduceEqDiff, if_false]
      rw [deserializeVarint_holds hr]
      cases hd2 : Typical.deserializeVarint r with
      | none => rfl
      | some p =>
        obtain ⟨size, r2⟩ := p
        have h1 := (hsuf hd).length_le
        have h2 := (hsuf hd2).length_le
        simp only [Option.map_some, Option.some.injEq, Prod.mk.injEq, and_true]
        omega

theorem deserializeVarint_suffix {s r : Bytes} {x : UInt64} (h : Typical.deserializeVarint s = some (x, r)) :
    r <:+ s := by
  cases s with
  | nil => simp [Typical.deserializeVarint] at h
  | cons b s =>
    rw [deserializeVarint_cons] at h
    split at h
    · cases h
      exact List.IsSuffix.trans (List.drop_suffix _ _) (List.suffix_cons _ _)
    · cases h

/-- Reading the header of a field of a tree. -/
theorem deserializeFieldHeader_wire {v : View} {off i : Nat} {t : Tree} {rest : Bytes} (hi : i < 2 ^ 62)
    (hn : (t.wire true).length < 2 ^ 64) (h : Holds v off (Spec.field i t.isInteger (t.wire true) ++ rest)) :
    ∃ off', deserializeFieldHeader v off = some (off', i, (t.wire true).length) ∧
      off' = off + (Spec.header i (t.wire true).length t.isInteger).length ∧
      Holds v off' (t.wire true ++ rest) := by
  refine ⟨_, ?_, rfl, ?_⟩
  · rw [deserializeFieldHeader_holds h deserializeVarint_suffix, deserializeFieldHeader_tree i t rest hi hn]
    simp only [Option.map_some, Option.some.injEq, Prod.mk.injEq, and_true]
    simp only [Spec.field, List.length_append]
    omega
  · rw [Spec.field, List.append_assoc] at h
    exact h.append

/-! ### Scalars -/

theorem Holds.getBytes_all {v : View} {off : Nat} {p q : Bytes} (h : Holds v off (p ++ q)) :
    v.getBytes off p.length = some p := by
  rw [Holds.getBytes _ _ _ h, if_pos (by simp), List.take_left]

theorem leValue_fixed64 {n : Nat} (h : n < 2 ^ 64) : leValue (fixed64 n) = n := by
  rw [leValue_eq]
  have := leNat_of_littleEndian 8 n (fixed64 n) (by simp [fixed64, littleEndian])
  rw [this.1]; omega

theorem readU64_field {v : View} {n : Nat} (hn : n < 2 ^ 64) (h : Holds v 0 (intField n)) :
    readU64 true (intField n).length v 0 = some (v.len, n) := by
  have hlen : (intField n).length = v.len := by have := h.2.1; omega
  unfold readU64
  rw [if_pos rfl]
  rcases intField_cases n with ⟨h0, h1⟩ | ⟨h0, h8, h1⟩ | ⟨h8, h1⟩
  · subst h0
    rw [h1] at hlen ⊢
    simp only [List.length_nil] at hlen
    simp [← hlen]
  · split
    · omega
    · omega
    · rw [h1] at h hlen
      have h' : Holds v 0 (varintBytes n ++ []) := by rwa [List.append_nil]
      rw [(deserializeVarint_wire hn h').1, ← hlen, Nat.zero_add]
  · rw [h8]
    simp only
    rw [h1] at h hlen
    have h' : Holds v 0 (fixed64 n ++ []) := by rwa [List.append_nil]
    have hb := h'.getBytes_all
    rw [fixed64_length] at hb hlen
    rw [hb]
    simp only [leValue_fixed64 hn, Nat.zero_add, hlen]

theorem readU64_elem {v : View} {off n : Nat} {rest : Bytes} (hn : n < 2 ^ 64)
    (h : Holds v off (varintBytes n ++ rest)) (k : Nat) :
    readU64 false k v off = some (off + (varintBytes n).length, n) := by
  unfold readU64
  simp only [Bool.false_eq_true, if_false]
  exact (deserializeVarint_wire hn h).1

end Typical.Ts
