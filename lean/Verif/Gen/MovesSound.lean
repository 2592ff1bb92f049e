import Verif.Spec.RustMoves

/-!
# What is taken to be copied is copied

`Ex.use`, from the syntax, against `HasTy`, from the types.
-/

namespace Typical.Gen

theorem stays_moves {t : RT} (h : t.moves = false) : IsCopy t := by
  cases t <;> simp only [RT.moves, Bool.true_eq_false] at h
  all_goals constructor

theorem Agrees.set {κ : Var → Bool} {Γ : Vars} (h : Agrees κ Γ) (v : Var) (τ : RT) (m b : Bool) (hb : b = false → IsCopy τ) : Agrees (set κ v b) (Γ.set v τ m) := by
  intro w t m' h1 h2
  simp only [Vars.set, Gen.set] at h1 h2
  split at h1
  · rename_i hw
    rw [if_pos hw] at h2
    cases h1
    exact hb h2
  · rename_i hw
    rw [if_neg hw] at h2
    exact h w t m' h1 h2

theorem Agrees.mono {κ κ' : Var → Bool} {Γ : Vars} (h : Agrees κ Γ) (hκ : ∀ v, κ' v = false → κ v = false) : Agrees κ' Γ :=
  fun v τ m h1 h2 => h v τ m h1 (hκ v h2)

theorem setAll_cons (κ : Var → Bool) (v : Var) (vs : List Var) (b : Bool) : setAll κ (v :: vs) b = setAll (set κ v b) vs b := by
  funext w
  simp only [setAll, set, List.mem_cons]
  by_cases h1 : w = v <;> by_cases h2 : w ∈ vs <;> simp [h1, h2]

theorem setAll_append (κ : Var → Bool) (vs ws : List Var) (b : Bool) : setAll κ (vs ++ ws) b = setAll (setAll κ vs b) ws b := by
  funext w
  simp only [setAll, List.mem_append]
  by_cases h1 : w ∈ vs <;> by_cases h2 : w ∈ ws <;> simp [h1, h2]

/-- Variables of a pattern. -/
theorem Agrees.binds {mod : List Str} {wrap : RT → RT} {ts : List TypeEx} {bs : List (Option Var)} {Γ Γ' : Vars} (h : Binds mod wrap ts bs Γ Γ') {b : Bool}
    (hb : b = false → ∀ τ, IsCopy (wrap τ)) : ∀ {κ : Var → Bool}, Agrees κ Γ → Agrees (setAll κ (bs.filterMap id) b) Γ' := by
  induction h with
  | nil =>
    intro κ hA
    have : setAll κ ([] : List Var) b = κ := by funext w; simp [setAll]
    simpa [this] using hA
  | skip _ ih => intro κ hA; simpa using ih hA
  | @bind t τ ts v bs Γ Γ' _ _ ih =>
    intro κ hA
    rw [List.filterMap_cons, id]
    simp only
    rw [setAll_cons]
    exact ih (hA.set v _ _ _ fun h => hb h _)

set_option maxHeartbeats 4000000 in
/-- The types of calls of functions at the top of the file. -/
theorem runtime_type {E : TyEnv} {Γ : Vars} {e : Ex} {τ : RT} {k : Cat} (h : HasTy E Γ e τ k) : ∀ s f as, e = .runtime s f as → τ = f.signature.2 := by
  apply HasTy.rec (t := h) (motive_1 := fun E Γ e τ k _ => ∀ s f as, e = .runtime s f as → τ = f.signature.2) (motive_2 := fun _ _ _ _ _ => True) (motive_3 := fun _ _ _ _ _ => True) (motive_4 := fun _ _ _ _ _ => True)
    (motive_5 := fun _ _ _ _ _ _ _ => True)
  case runtime => intros; rename_i h; cases h; rfl
  case never => intro E Γ e τ _ ih s f as h; have := ih s f as h; cases f <;> cases this
  case move => intro E Γ e τ m _ ih; exact ih
  case copy => intro E Γ e τ o m _ _ ih; exact ih
  all_goals first
    | (intros; trivial)
    | (intros; rename_i h; cases h)

theorem stays_never : ¬ IsCopy .never := by
  nofun

theorem stays_named {id : TypeId} : ¬ IsCopy (.named id) := by
  nofun

theorem stays_box {t : RT} : ¬ IsCopy (.box t) := by
  nofun

/-- A place which is not behind a reference. -/
def Cat.Own : Cat → Prop
  | .value => True
  | .place o _ => o = true

theorem autoDeref_own {t u : RT} {k k' : Cat} (h : AutoDeref t k u k') : k'.Own → k = k' ∧ t = u ∨ k.Own ∧ ∃ t', t = .box t' := by
  induction h with
  | refl => exact fun _ => .inl ⟨rfl, rfl⟩
  | ref _ ih =>
    intro h
    rcases ih h with h' | h'
    · rw [← h'.1] at h
      simp [Cat.Own] at h
    · simp [Cat.Own] at h'
  | refMut _ _ ih =>
    intro h
    rcases ih h with h' | h'
    · rw [← h'.1] at h
      simp [Cat.Own] at h
    · simp [Cat.Own] at h'
  | @box t o m u k' _ ih =>
    intro h
    rcases ih h with h' | h'
    · exact .inr ⟨h'.1 ▸ h, _, rfl⟩
    · exact .inr ⟨h'.1, _, rfl⟩

theorem or_copied {a b : Use} (h : a.or b = .copied) : a = .copied ∨ b = .copied := by
  cases a <;> cases b <;> simp_all [Use.or]

theorem ofBool_copied {b : Bool} (h : Use.ofBool b = .copied) : b = false := by cases b <;> simp_all [Use.ofBool]

theorem moves_false {u : Use} (h : u.moves = false) : u = .copied := by cases u <;> simp_all [Use.moves]

theorem result_stays {E : TyEnv} {Γ : Vars} {e : Ex} {t : RT} {k : Cat} (h : HasTy E Γ e (.result t) k) (he : e.resultMoves = false) : IsCopy t := by
  unfold Ex.resultMoves at he
  split at he
  · have := runtime_type h _ _ _ rfl
    cases this
    exact .u64
  · have := runtime_type h _ _ _ rfl
    cases this
    exact .pair .u64 .usize
  · cases he

theorem Agrees.pat {E : TyEnv} {p : Pat} {τ : RT} {k : Cat} {Γ Γ' : Vars} {κ : Var → Bool} {e : Ex} (hA : Agrees κ Γ) (he : HasTy E Γ e τ k) (h : PatTy E p τ k Γ Γ') :
    Agrees (setAll κ p.binders (p.moves e)) Γ' := by
  have h0 : ∀ b, setAll κ [] b = κ := fun b => by funext w; simp [setAll]
  cases h with
  | int => simpa only [Pat.binders, h0] using hA
  | u64 => simpa only [Pat.binders, h0] using hA
  | range => simpa only [Pat.binders, h0] using hA
  | usize => simpa only [Pat.binders, h0] using hA
  | wild => simpa only [Pat.binders, h0] using hA
  | wild₂ => simpa only [Pat.binders, h0] using hA
  | @ok v t _ =>
    simp only [Pat.binders, Pat.moves, setAll_cons]
    have := hA.set (Γ := Γ) v t false e.resultMoves (fun h => result_stays he h)
    refine this.mono fun w hw => ?_
    simpa [setAll] using hw
  | @err v t _ =>
    simp only [Pat.binders, Pat.moves, setAll_cons]
    have := hA.set (Γ := Γ) v .error false true nofun
    refine this.mono fun w hw => ?_
    simpa [setAll] using hw
  | variantRef _ _ _ hb => exact hA.binds hb fun _ τ => .ref
  | variant _ _ _ hb => exact hA.binds (b := true) hb (fun h => by cases h)
  | variants _ _ _ _ _ hb hb' =>
    simp only [Pat.binders, Pat.moves, setAll_append]
    exact (hA.binds hb fun _ τ => .ref).binds hb' fun _ τ => .ref

set_option maxHeartbeats 4000000 in
theorem use_sound {E : TyEnv} {Γ : Vars} {e : Ex} {τ : RT} {k : Cat} (h : HasTy E Γ e τ k) :
    ∀ κ, Agrees κ Γ → e.use κ = .copied → k.Own → IsCopy τ := by
  apply HasTy.rec (t := h) (motive_1 := fun E Γ e τ k _ => ∀ κ, Agrees κ Γ → e.use κ = .copied → k.Own → IsCopy τ) (motive_2 := fun _ _ _ _ _ => True)
    (motive_3 := fun _ _ _ _ _ => True) (motive_4 := fun _ _ _ _ _ => True)
    (motive_5 := fun E Γ τ k arms σ _ => ∀ e κ, HasTy E Γ e τ k → Agrees κ Γ → arms.use κ e = .copied → IsCopy σ)
  case move => intro E Γ e τ m _ ih κ hA hu _; exact ih κ hA hu rfl
  case copy => intro E Γ e τ o m h _ _ κ hA hu _; exact h
  case never => intro E Γ e τ _ ih κ hA hu hk; exact (stays_never (ih κ hA hu hk)).elim
  case var =>
    intro E Γ v τ m h κ hA hu _
    simp only [Ex.use] at hu
    exact hA _ _ _ h (ofBool_copied hu)
  case lit =>
    intro E Γ l τ h κ hA hu _
    cases h <;> simp [Ex.use] at hu <;> constructor
  case deref => intros; simp_all [Cat.Own]
  case derefMut => intros; simp_all [Cat.Own]
  case derefBox =>
    intro E Γ e τ o m _ ih κ hA hu hk
    simp only [Ex.use] at hu
    exact (stays_box (ih κ hA hu hk)).elim
  case ref => intros; exact .ref
  case paren => intro E Γ e τ k _ ih κ hA hu hk; exact ih κ hA (by simpa only [Ex.use] using hu) hk
  case fst =>
    intro E Γ e t k o m a b _ ha ih κ hA hu hk
    simp only [Ex.use] at hu
    rcases autoDeref_own ha hk with h | ⟨h, t', h'⟩
    · have h1 := ih κ hA hu (h.1 ▸ hk)
      rw [h.2] at h1
      cases h1 with | pair h1 h2 => exact h1
    · exact (stays_box (h' ▸ ih κ hA hu h)).elim
  case snd =>
    intro E Γ e t k o m a b _ ha ih κ hA hu hk
    simp only [Ex.use] at hu
    rcases autoDeref_own ha hk with h | ⟨h, t', h'⟩
    · have h1 := ih κ hA hu (h.1 ▸ hk)
      rw [h.2] at h1
      cases h1 with | pair h1 h2 => exact h2
    · exact (stays_box (h' ▸ ih κ hA hu h)).elim
  case runtime =>
    intro E Γ s f as _ _ _ κ hA hu _
    cases f <;> simp [Ex.use] at hu <;> constructor
  case bin =>
    intro E Γ op a b τ σ h _ _ _ _ κ hA hu _
    cases h <;> constructor
  case asRef => intros; exact .option .ref
  case try_ =>
    intro E Γ e τ σ _ h _ κ hA hu _
    simp only [Ex.use] at hu
    exact result_stays h (ofBool_copied hu)
  case brace => intro E Γ b τ _ ih κ hA hu hk; exact ih κ hA (by simpa only [Ex.use] using hu) hk
  case block => intro E Γ b τ _ ih κ hA hu hk; exact ih κ hA (by simpa only [Ex.use] using hu) hk
  case blank => intro E Γ b τ _ ih κ hA hu hk; exact ih κ hA (by simpa only [Ex.use] using hu) hk
  case letIn =>
    intro E Γ m v e b τ σ _ _ ih ih' κ hA hu hk
    simp only [Ex.use] at hu
    exact ih' _ (hA.set _ _ _ _ fun h => ih κ hA (moves_false h) trivial) hu trivial
  case seq =>
    intro E Γ e b τ σ _ _ _ ih ih' κ hA hu hk
    simp only [Ex.use] at hu
    split at hu
    · cases hu
    · split at hu
      · rename_i hd
        cases b <;> simp only [Ex.isDone, Bool.false_eq_true] at hd
        exact ih' κ hA (by simp only [Ex.use]) trivial
      · exact ih' κ hA hu trivial
  case diverge =>
    intro E Γ e _ ih κ hA hu hk
    simp only [Ex.use, Ex.isDone] at hu
    split at hu
    · cases hu
    · exact ih κ hA hu trivial
  case ifInline =>
    intro E Γ c a b τ _ _ _ ih1 ih2 ih3 κ hA hu hk
    simp only [Ex.use] at hu
    rcases or_copied hu with h | h
    · exact ih2 κ hA h trivial
    · exact ih3 κ hA h trivial
  case ifElse =>
    intro E Γ c a b τ _ _ _ ih1 ih2 ih3 κ hA hu hk
    simp only [Ex.use] at hu
    rcases or_copied hu with h | h
    · exact ih2 κ hA h trivial
    · exact ih3 κ hA h trivial
  case matchInline => intro E Γ e arms τ k σ h _ _ _ ih κ hA hu hk; exact ih _ κ h hA (by simpa only [Ex.use] using hu)
  case matchLines => intro E Γ e arms τ k σ h _ _ _ ih κ hA hu hk; exact ih _ κ h hA (by simpa only [Ex.use] using hu)
  all_goals first
    | (intros; trivial)
    | (intros; constructor; done)
    | (intros; rename_i hu _; simp [Ex.use] at hu; done)
    | skip
  intro E Γ τ k p b rest σ Γ' hp _ _ ih ih' e κ he hA hu
  simp only [Arms.use] at hu
  rcases or_copied hu with h | h
  · exact ih _ (hA.pat he hp) h trivial
  · exact ih' e κ he hA h

end Typical.Gen
