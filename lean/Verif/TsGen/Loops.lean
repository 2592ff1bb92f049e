import Verif.TsGen.Reps

/-!
# Helper: loops, with enough fuel
-/

namespace Typical.TsGen

open Gen (Ev)

/-- The rounds of a loop, with enough fuel. -/
def Loops (cond body : Nat → M) (s : St) (r : Out × St) : Prop :=
  ∃ N, ∀ n k, N ≤ n → N ≤ k → rounds (cond n) (body n) k s = some r

section
variable {cond body : Nat → M} {s s1 s2 : St} {r : Out × St} {v : Val}

theorem Loops.next (h1 : Ev fun n => cond n s = some (.val (.bool true), s1)) (h2 : Ev fun n => body n s1 = some (.val v, s2))
    (h3 : Loops cond body s2 r) : Loops cond body s r := by
  obtain ⟨A, h1⟩ := h1
  obtain ⟨B, h2⟩ := h2
  obtain ⟨C, h3⟩ := h3
  refine ⟨A + B + C + 1, fun n k hn hk => ?_⟩
  obtain ⟨k, rfl⟩ : ∃ j, k = j + 1 := ⟨k - 1, by omega⟩
  rw [rounds_next (h1 n (by omega)) (h2 n (by omega))]
  exact h3 n k (by omega) (by omega)

theorem Loops.stop (h1 : Ev fun n => cond n s = some (.val (.bool false), s1)) : Loops cond body s (.val .undef, s1) := by
  obtain ⟨A, h1⟩ := h1
  refine ⟨A + 1, fun n k hn hk => ?_⟩
  obtain ⟨k, rfl⟩ : ∃ j, k = j + 1 := ⟨k - 1, by omega⟩
  exact rounds_stop (h1 n (by omega))

theorem Loops.brk (h1 : Ev fun n => cond n s = some (.val (.bool true), s1)) (h2 : Ev fun n => body n s1 = some (.brk, s2)) :
    Loops cond body s (.val .undef, s2) := by
  obtain ⟨A, h1⟩ := h1
  obtain ⟨B, h2⟩ := h2
  refine ⟨A + B + 1, fun n k hn hk => ?_⟩
  obtain ⟨k, rfl⟩ : ∃ j, k = j + 1 := ⟨k - 1, by omega⟩
  exact rounds_brk (h1 n (by omega)) (h2 n (by omega))

theorem Loops.ret (h1 : Ev fun n => cond n s = some (.val (.bool true), s1)) (h2 : Ev fun n => body n s1 = some (.ret v, s2)) :
    Loops cond body s (.ret v, s2) := by
  obtain ⟨A, h1⟩ := h1
  obtain ⟨B, h2⟩ := h2
  refine ⟨A + B + 1, fun n k hn hk => ?_⟩
  obtain ⟨k, rfl⟩ : ∃ j, k = j + 1 := ⟨k - 1, by omega⟩
  exact rounds_ret (h1 n (by omega)) (h2 n (by omega))

theorem Loops.throw {e : Ts.Err} (h1 : Ev fun n => cond n s = some (.val (.bool true), s1)) (h2 : Ev fun n => body n s1 = some (.throw e, s2)) :
    Loops cond body s (.throw e, s2) := by
  obtain ⟨A, h1⟩ := h1
  obtain ⟨B, h2⟩ := h2
  refine ⟨A + B + 1, fun n k hn hk => ?_⟩
  obtain ⟨k, rfl⟩ : ∃ j, k = j + 1 := ⟨k - 1, by omega⟩
  exact rounds_throw (h1 n (by omega)) (h2 n (by omega))

theorem Loops.ev (h : Loops cond body s r) : Ev fun n => rounds (cond n) (body n) n s = some r := by
  obtain ⟨N, h⟩ := h
  exact ⟨N, fun n hn => h n n hn hn⟩
end

/-- A loop which counts to `L`, with an invariant. -/
theorem Loops.count {cond body : Nat → M} {L : Nat} (I : Nat → St → Prop)
    (hc : ∀ i s, I i s → i ≤ L → Ev fun n => cond n s = some (.val (.bool (decide (i < L))), s))
    (hb : ∀ i s, I i s → i < L → ∃ s' v, I (i + 1) s' ∧ Ev fun n => body n s = some (.val v, s')) :
    (j i : Nat) → i + j = L → ∀ s, I i s → ∃ s', I L s' ∧ Loops cond body s (.val .undef, s')
  | 0, i, h, s, hi => by
    obtain rfl : i = L := by omega
    have := hc i s hi (Nat.le_refl _)
    rw [decide_eq_false (Nat.lt_irrefl i)] at this
    exact ⟨s, hi, .stop this⟩
  | j + 1, i, h, s, hi => by
    have h0 := hc i s hi (by omega)
    rw [decide_eq_true (show i < L by omega)] at h0
    obtain ⟨s1, u, h1, h2⟩ := hb i s hi (by omega)
    obtain ⟨s2, h3, h4⟩ := Loops.count I hc hb j (i + 1) (by omega) s1 h1
    exact ⟨s2, h3, .next h0 h2 h4⟩

end Typical.TsGen
