import Verif.Gen.DevPrim
import Verif.Gen.RustGen

/-!
# Helper: generated code on devices agrees with generated code on byte lists

Errors of devices reach the caller: each expression which can report one is the operand of `?`, or is matched and its error returned (unless it says that the
input has ended), or is the result of its function. `Ex.Ok` states this about the syntax; `Ex.sim` draws the consequence for executions.
-/

namespace Typical.Gen

/-- Functions which neither read nor write cannot fail that way. -/
def Fn.level : Fn → Level
  | .serializeWithAtlas => .tail
  | .deserializeFromReaderRef => .tail
  | _ => .pure

/-- Does the method write? -/
def Method.isPure : Method → Bool
  | .writeAll => false
  | .serializeWithAtlas => false
  | _ => true

/-- The arms `Ok(v) => b, Err(err) => …` which return all errors but that the input has ended. -/
def Arms.Catch (arms : Arms) : Prop := ∃ v b x, arms = .cons (.ok v) b (.cons (.err .err) (breakAtEnd x) .nil)

mutual
/-- Errors of devices are not ignored. If `cat` is false, there are no calls of deserializers. -/
def Ex.Ok (cat : Bool) : Level → Ex → Prop
  | _, .var _ => True
  | _, .lit _ => True
  | l, .deref e => e.Ok cat l
  | l, .ref e => e.Ok cat l
  | l, .refMut e => e.Ok cat l
  | l, .paren e => e.Ok cat l
  | l, .field e _ => e.Ok cat l.arg
  | l, .fst e => e.Ok cat l.arg
  | l, .snd e => e.Ok cat l.arg
  | l, .asU64 e => e.Ok cat l.arg
  | l, .asUsize e => e.Ok cat l.arg
  | l, .bin _ a b => a.Ok cat l.arg ∧ b.Ok cat l.arg
  | l, .pair a b => a.Ok cat l.arg ∧ b.Ok cat l.arg
  | l, .sumLines es => es.Ok cat l.arg
  | l, .orLines es => es.Ok cat l.arg
  | l, .units e => e.Ok cat l.arg
  | l, .runtime _ f args => (f.isPure = true ∨ l = .tail) ∧ args.Ok cat l.arg
  | l, .std _ args => args.Ok cat l.arg
  | l, .method e m args => (m.isPure = true ∨ l = .tail) ∧ e.Ok cat l.arg ∧ args.Ok cat l.arg
  | l, .mutate _ _ e => e.Ok cat l.arg
  | l, .read _ r _ => l = .tail ∧ r.Ok cat l.arg
  | l, .deserialize _ r => cat = true ∧ l = .tail ∧ r.Ok cat l.arg
  | l, .deserializeSelf r => cat = true ∧ l = .tail ∧ r.Ok cat l.arg
  | l, .try_ e => e.Ok cat l.tried
  | l, .mapVec e _ b => e.Ok cat l.arg ∧ b.Ok cat .pure
  | l, .mapOption e _ b => e.Ok cat l.arg ∧ b.Ok cat .pure
  | l, .mapOr e _ b => e.Ok cat l.arg ∧ b.Ok cat .pure
  | l, .fold e _ _ b => e.Ok cat l.arg ∧ b.Ok cat .pure
  | l, .structLit _ inits => inits.Ok cat l.arg
  | l, .variantLit _ _ args => args.Ok cat l.arg
  | l, .brace b => b.Ok cat l
  | l, .block b => b.Ok cat l
  | l, .letIn _ _ e b => e.Ok cat l.arg ∧ b.Ok cat l
  | l, .letNone _ _ b => b.Ok cat l
  | l, .letPair _ _ e b => e.Ok cat l.arg ∧ b.Ok cat l
  | l, .letFn _ e b => e.Ok cat .tail ∧ b.Ok cat l
  | l, .callFn e => l = .tail ∧ e.Ok cat l.arg
  | l, .seq e b => e.Ok cat l.arg ∧ b.Ok cat l
  | l, .blank b => b.Ok cat l
  | _, .done => True
  | l, .ifInline e a b => e.Ok cat l.arg ∧ a.Ok cat l ∧ b.Ok cat l
  | l, .ifElse e a b => e.Ok cat l.arg ∧ a.Ok cat l ∧ b.Ok cat l
  | l, .ifThen e a => e.Ok cat l.arg ∧ a.Ok cat l
  | l, .ifEof _ a => a.Ok cat l
  | l, .ifSome _ _ e f b => e.Ok cat l.arg ∧ f.Ok cat l.arg ∧ b.Ok cat l
  | l, .forIn _ e b => e.Ok cat l.arg ∧ b.Ok cat l.arg
  | l, .forZip _ _ e f b => e.Ok cat l.arg ∧ f.Ok cat l.arg ∧ b.Ok cat l.arg
  | l, .matchInline e arms => e.Ok cat l.arg ∧ arms.Ok cat l
  | l, .matchLines e arms => (e.Ok cat l.arg ∨ cat = true ∧ l ≠ .pure ∧ e.Ok cat .tail ∧ arms.Catch) ∧ arms.Ok cat l
  | l, .loop b => b.Ok cat l.arg
  | _, .break_ => True
  | l, .return_ e => e.Ok cat l.arg
  | _, .panic => True
  | _, .errOf _ => True
  | _, .errMissing _ => True

def Args.Ok (cat : Bool) : Level → Args → Prop
  | _, .nil => True
  | l, .cons e rest => e.Ok cat l ∧ rest.Ok cat l

def Inits.Ok (cat : Bool) : Level → Inits → Prop
  | _, .nil => True
  | l, .cons _ e rest => e.Ok cat l ∧ rest.Ok cat l

def Arms.Ok (cat : Bool) : Level → Arms → Prop
  | _, .nil => True
  | l, .cons _ b rest => b.Ok cat l ∧ rest.Ok cat l
end

/-! ### Methods -/

theorem Sim.method {F : Faults} {l : Level} {call : TypeId → Fn → List Val → M} {call' : Nat → TypeId → Fn → List Val → DM} {m : Method}
    (hc : ∀ t f vs, f ≠ .deserializeFromReaderRef → Sim F f.level (call t f vs) (fun n => call' n t f vs)) (hm : m.isPure = true ∨ l = .tail)
    (v : Val) (vs : List Val) : Sim F l (m.run call v vs) (fun n => m.runD (call' n) v vs) := by
  unfold Method.run
  split
  all_goals first
    | exact .pure
    | exact .out nofun
    | exact (hc _ .atlas _ nofun).ofPure
    | exact (hc _ .size _ nofun).ofPure
    | exact (hc _ .from_ _ nofun).ofPure
    | (obtain rfl : l = .tail := by simpa [Method.isPure] using hm
       first
         | exact .write
         | exact hc _ .serializeWithAtlas _ nofun)
    | skip
  · rename_i h1 h2
    cases v with
    | struct a b => exact (h1 a b rfl).elim
    | variant a b c => exact (h2 a b c rfl).elim
    | _ => exact .pure
  · exact .none

/-! ### Evaluation -/

/-- The contexts of the two executions correspond. -/
structure CtxSim (F : Faults) (cat : Bool) (t : Rt.Target) (c : Ctx) (c' : Nat → DCtx) : Prop where
  target : ∀ n, (c' n).target = t
  lim : ∀ n, (c' n).lim = c.lim
  mod : ∀ n, (c' n).mod = c.mod
  self : ∀ n, (c' n).self = c.self
  fuel : ∀ n, (c' n).fuel = n
  call : ∀ t f vs, (f = .deserializeFromReaderRef → cat = true) → Sim F f.level (c.call t f vs) (fun n => (c' n).call t f vs)
  elem : ∀ v, Sim F .tail (c.elem v) (fun n => (c' n).elem v)

theorem Sim.mono {F : Faults} {l : Level} {m : M} {m' : Nat → DM} (h : Sim F .guarded m m') (hl : l ≠ .pure) : Sim F l m m' :=
  h.weaken (fun _ => hl) nofun

/-- The arms which return errors. -/
theorem Arms.Catch.err {arms : Arms} (h : arms.Catch) (c : DCtx) {e : Kind} (he : e ≠ .unexpectedEof) (d : DSt) :
    ∃ d', d'.writer = d.writer ∧ arms.evalD c (.err e) d = some (.ret (.err e), d') := by
  obtain ⟨v, b, x, rfl⟩ := h
  refine ⟨d, rfl, ?_⟩
  cases x <;> cases e <;> first | exact absurd rfl he | rfl

theorem MutMethod.run_hang {m : MutMethod} {lim : Nat} {x y : Val} {r : Out × Val} (h : m.run lim x y = some r) : r.1 ≠ .fail .hang := by
  unfold MutMethod.run at h
  split at h
  all_goals (try split at h)
  all_goals first | (cases h; nofun) | cases h

mutual
theorem Ex.sim {F : Faults} {cat : Bool} {t : Rt.Target} (ht : t.bits = 64) (hF : cat = true → ¬ F.reads .unexpectedEof ∧ ¬ F.writes .unexpectedEof)
    (c : Ctx) (c' : Nat → DCtx) (hc : CtxSim F cat t c c') (l : Level) : (e : Ex) → e.Ok cat l → Sim F l (e.eval c) (fun n => e.evalD (c' n))
  | .var _, _ => by simp only [Ex.eval, Ex.evalD]; exact .get
  | .lit _, _ => by simp only [Ex.eval, Ex.evalD]; exact .pure
  | .deref e, h => by simp only [Ex.eval, Ex.evalD]; simp only [Ex.Ok] at h; exact e.sim ht hF c c' hc l h
  | .ref e, h => by simp only [Ex.eval, Ex.evalD]; simp only [Ex.Ok] at h; exact e.sim ht hF c c' hc l h
  | .refMut e, h => by simp only [Ex.eval, Ex.evalD]; simp only [Ex.Ok] at h; exact e.sim ht hF c c' hc l h
  | .paren e, h => by simp only [Ex.eval, Ex.evalD]; simp only [Ex.Ok] at h; exact e.sim ht hF c c' hc l h
  | .field e _, h => by
    simp only [Ex.eval, Ex.evalD]; simp only [Ex.Ok] at h
    exact (e.sim ht hF c c' hc l.arg h).bind fun _ => .ofOption
  | .fst e, h => by
    simp only [Ex.eval, Ex.evalD]; simp only [Ex.Ok] at h
    exact (e.sim ht hF c c' hc l.arg h).bind fun _ => .ofOption
  | .snd e, h => by
    simp only [Ex.eval, Ex.evalD]; simp only [Ex.Ok] at h
    exact (e.sim ht hF c c' hc l.arg h).bind fun _ => .ofOption
  | .asU64 e, h => by
    simp only [Ex.eval, Ex.evalD]; simp only [Ex.Ok] at h
    exact (e.sim ht hF c c' hc l.arg h).bind fun _ => .ofOption
  | .asUsize e, h => by
    simp only [Ex.eval, Ex.evalD, hc.target]; simp only [Ex.Ok] at h
    exact (e.sim ht hF c c' hc l.arg h).bind fun _ => .asUsize ht _
  | .bin op a b, h => by
    simp only [Ex.eval, Ex.evalD, hc.target]; simp only [Ex.Ok] at h
    exact (a.sim ht hF c c' hc l.arg h.1).bind fun _ => (b.sim ht hF c c' hc l.arg h.2).bind fun _ => .bin ht _ _ _
  | .pair a b, h => by
    simp only [Ex.eval, Ex.evalD]; simp only [Ex.Ok] at h
    exact (a.sim ht hF c c' hc l.arg h.1).bind fun _ => (b.sim ht hF c c' hc l.arg h.2).bind fun _ => .pure
  | .sumLines es, h => by
    simp only [Ex.eval, Ex.evalD]; simp only [Ex.Ok] at h
    exact es.sumSim ht hF c c' hc l h
  | .orLines es, h => by
    simp only [Ex.eval, Ex.evalD]; simp only [Ex.Ok] at h
    exact es.orSim ht hF c c' hc l h
  | .units e, h => by
    simp only [Ex.eval, Ex.evalD]; simp only [Ex.Ok] at h
    exact (e.sim ht hF c c' hc l.arg h).bind fun _ => .ofOption
  | .runtime supers f as, h => by
    simp only [Ex.eval, Ex.evalD, hc.mod, hc.target, hc.fuel]; simp only [Ex.Ok] at h
    split
    · exact as.sim ht hF c c' hc l h.2 _ (fun n vs => f.runD t n vs) fun vs => .runtime ht f vs h.1
    · exact .none
  | .std f as, h => by
    simp only [Ex.eval, Ex.evalD]; simp only [Ex.Ok] at h
    exact as.sim ht hF c c' hc l h _ (fun _ vs => f.runD vs) fun vs => .std f vs
  | .method e m as, h => by
    simp only [Ex.eval, Ex.evalD]; simp only [Ex.Ok] at h
    exact (e.sim ht hF c c' hc l.arg h.2.1).bind fun v => as.sim ht hF c c' hc l h.2.2 _ (fun n vs => m.runD (c' n).call v vs) fun vs =>
      .method (call' := fun n => (c' n).call) (fun t f vs hf => hc.call t f vs (fun e => absurd e hf)) h.1 v vs
  | .mutate v m e, h => by
    simp only [Ex.eval, Ex.evalD, hc.lim]; simp only [Ex.Ok] at h
    exact (e.sim ht hF c c' hc l.arg h).bind fun _ => .modify fun _ _ h => m.run_hang h
  | .read f r v, h => by
    simp only [Ex.eval, Ex.evalD]; simp only [Ex.Ok] at h
    obtain ⟨rfl, h⟩ := h
    refine (r.sim ht hF c c' hc Level.tail.arg h).bind fun x => ?_
    cases x <;> first | exact .read | exact .none
  | .deserialize path r, h => by
    simp only [Ex.eval, Ex.evalD, hc.mod]; simp only [Ex.Ok] at h
    obtain ⟨hcat, rfl, h⟩ := h
    refine (r.sim ht hF c c' hc Level.tail.arg h).bind fun x => ?_
    cases rustResolve c.mod path.supers path.modules with
    | some mod => exact hc.call _ .deserializeFromReaderRef _ fun _ => hcat
    | none => exact .none
  | .deserializeSelf r, h => by
    simp only [Ex.eval, Ex.evalD, hc.self]; simp only [Ex.Ok] at h
    obtain ⟨hcat, rfl, h⟩ := h
    exact (r.sim ht hF c c' hc Level.tail.arg h).bind fun x => hc.call _ _ _ fun _ => hcat
  | .try_ e, h => by
    simp only [Ex.eval, Ex.evalD]; simp only [Ex.Ok] at h
    refine (e.sim ht hF c c' hc l.tried h).catch (fun x => ?_) (fun e d out _ => ⟨d, rfl, .of fun n => rfl⟩)
    cases x <;> first | exact .pure | exact .out nofun | exact .none
  | .mapVec e v b, h => by
    simp only [Ex.eval, Ex.evalD]; simp only [Ex.Ok] at h
    refine (e.sim ht hF c c' hc l.arg h.1).bind fun x => ?_
    cases x with
    | vec l => exact Sim.mapEach (l := .pure) (f' := fun n y => (b.evalD (c' n)).closure [(v, y)]) (fun _ _ => (b.sim ht hF c c' hc .pure h.2).closure) _ _
    | _ => exact .none
  | .mapOption e v b, h => by
    simp only [Ex.eval, Ex.evalD]; simp only [Ex.Ok] at h
    refine (e.sim ht hF c c' hc l.arg h.1).bind fun x => ?_
    cases x with
    | some y => exact (b.sim ht hF c c' hc .pure h.2).closure.bind fun _ => .pure
    | none => exact .pure
    | _ => exact .none
  | .mapOr e v b, h => by
    simp only [Ex.eval, Ex.evalD]; simp only [Ex.Ok] at h
    refine (e.sim ht hF c c' hc l.arg h.1).bind fun x => ?_
    cases x with
    | some y => exact (b.sim ht hF c c' hc .pure h.2).closure
    | none => exact .pure
    | _ => exact .none
  | .fold e w v b, h => by
    simp only [Ex.eval, Ex.evalD]; simp only [Ex.Ok] at h
    refine (e.sim ht hF c c' hc l.arg h.1).bind fun x => ?_
    cases x with
    | vec l =>
      exact Sim.foldEach (f' := fun n a y => (b.evalD (c' n)).closure [(v, y), (w, a)]) (fun _ _ _ => (b.sim ht hF c c' hc .pure h.2).closure) _ _ _
    | _ => exact .none
  | .structLit name is, h => by
    simp only [Ex.eval, Ex.evalD, hc.mod]; simp only [Ex.Ok] at h
    exact is.sim ht hF c c' hc l h _ (fun _ l => .pure (.struct (c.mod, name) l)) fun _ => .pure
  | .variantLit name variant as, h => by
    simp only [Ex.eval, Ex.evalD, hc.mod]; simp only [Ex.Ok] at h
    exact as.sim ht hF c c' hc l h _ (fun _ vs => .pure (.variant (c.mod, name) variant vs)) fun _ => .pure
  | .brace b, h => by simp only [Ex.eval, Ex.evalD]; simp only [Ex.Ok] at h; exact b.sim ht hF c c' hc l h
  | .block b, h => by simp only [Ex.eval, Ex.evalD]; simp only [Ex.Ok] at h; exact b.sim ht hF c c' hc l h
  | .letIn _ v e b, h => by
    simp only [Ex.eval, Ex.evalD]; simp only [Ex.Ok] at h
    exact (e.sim ht hF c c' hc l.arg h.1).bind fun _ => (b.sim ht hF c c' hc l h.2).scoped
  | .letNone v _ b, h => by
    simp only [Ex.eval, Ex.evalD]; simp only [Ex.Ok] at h
    exact (b.sim ht hF c c' hc l h).scoped
  | .letPair v w e b, h => by
    simp only [Ex.eval, Ex.evalD]; simp only [Ex.Ok] at h
    refine (e.sim ht hF c c' hc l.arg h.1).bind fun x => ?_
    cases x with
    | pair y z => exact (b.sim ht hF c c' hc l h.2).scoped
    | _ => exact .none
  | .letFn _ e b, h => by
    simp only [Ex.eval, Ex.evalD]; simp only [Ex.Ok] at h
    exact b.sim ht hF { c with elem := fun x => (e.eval c).frame [(.subReader, x)] } (fun n => { c' n with elem := fun x => (e.evalD (c' n)).frame [(.subReader, x)] })
      ⟨hc.target, hc.lim, hc.mod, hc.self, hc.fuel, hc.call, fun v => (e.sim ht hF c c' hc .tail h.1).frame⟩ l h.2
  | .callFn e, h => by
    simp only [Ex.eval, Ex.evalD]; simp only [Ex.Ok] at h
    obtain ⟨rfl, h⟩ := h
    exact (e.sim ht hF c c' hc Level.tail.arg h).bind fun v => hc.elem v
  | .seq e b, h => by
    simp only [Ex.eval, Ex.evalD]; simp only [Ex.Ok] at h
    exact (e.sim ht hF c c' hc l.arg h.1).bind fun _ => b.sim ht hF c c' hc l h.2
  | .blank b, h => by simp only [Ex.eval, Ex.evalD]; simp only [Ex.Ok] at h; exact b.sim ht hF c c' hc l h
  | .done, _ => by simp only [Ex.eval, Ex.evalD]; exact .pure
  | .ifInline e a b, h => by
    simp only [Ex.eval, Ex.evalD]; simp only [Ex.Ok] at h
    refine (e.sim ht hF c c' hc l.arg h.1).bind fun x => ?_
    cases x with
    | bool x => cases x <;> first | exact a.sim ht hF c c' hc l h.2.1 | exact b.sim ht hF c c' hc l h.2.2
    | _ => exact .none
  | .ifElse e a b, h => by
    simp only [Ex.eval, Ex.evalD]; simp only [Ex.Ok] at h
    refine (e.sim ht hF c c' hc l.arg h.1).bind fun x => ?_
    cases x with
    | bool x => cases x <;> first | exact a.sim ht hF c c' hc l h.2.1 | exact b.sim ht hF c c' hc l h.2.2
    | _ => exact .none
  | .ifThen e a, h => by
    simp only [Ex.eval, Ex.evalD]; simp only [Ex.Ok] at h
    refine (e.sim ht hF c c' hc l.arg h.1).bind fun x => ?_
    cases x with
    | bool x => cases x <;> first | exact a.sim ht hF c c' hc l h.2 | exact .pure
    | _ => exact .none
  | .ifEof v a, h => by
    simp only [Ex.eval, Ex.evalD]; simp only [Ex.Ok] at h
    refine Sim.bind .get fun x => ?_
    cases x with
    | err k => cases k <;> first | exact .pure | exact a.sim ht hF c c' hc l h
    | _ => exact .none
  | .ifSome v w e f b, h => by
    simp only [Ex.eval, Ex.evalD]; simp only [Ex.Ok] at h
    refine (e.sim ht hF c c' hc l.arg h.1).bind fun x => (f.sim ht hF c c' hc l.arg h.2.1).bind fun y => ?_
    split
    · exact (b.sim ht hF c c' hc l h.2.2).scoped
    all_goals first | exact .pure | exact .none
  | .forIn v e b, h => by
    simp only [Ex.eval, Ex.evalD]; simp only [Ex.Ok] at h
    refine (e.sim ht hF c c' hc l.arg h.1).bind fun x => ?_
    cases x with
    | vec vs => exact Sim.forEach (f' := fun n y => (b.evalD (c' n)).scoped [(v, y)]) (fun _ => (b.sim ht hF c c' hc l.arg h.2).scoped) _
    | _ => exact .none
  | .forZip v w e f b, h => by
    simp only [Ex.eval, Ex.evalD]; simp only [Ex.Ok] at h
    refine (e.sim ht hF c c' hc l.arg h.1).bind fun x => (f.sim ht hF c c' hc l.arg h.2.1).bind fun y => ?_
    split
    · refine Sim.forEach (f' := fun n z => match z with
        | .pair z z' => (b.evalD (c' n)).scoped [(w, z'), (v, z)]
        | _ => fun _ => none) (fun z => ?_) _
      cases z with
      | pair z z' => exact (b.sim ht hF c c' hc l.arg h.2.2).scoped
      | _ => exact .none
    · exact .none
  | .matchInline e arms, h => by
    simp only [Ex.eval, Ex.evalD]; simp only [Ex.Ok] at h
    exact (e.sim ht hF c c' hc l.arg h.1).bind fun x => arms.sim ht hF c c' hc l x h.2
  | .matchLines e arms, h => by
    simp only [Ex.eval, Ex.evalD]; simp only [Ex.Ok] at h
    rcases h with ⟨h | ⟨hcat, hl, h, hk⟩, h2⟩
    · exact (e.sim ht hF c c' hc l.arg h).bind fun x => arms.sim ht hF c c' hc l x h2
    · have hl' : l.tried = .tail := by cases l <;> first | rfl | exact absurd rfl hl
      refine Sim.catch (hl' ▸ e.sim ht hF c c' hc .tail h) (fun x => arms.sim ht hF c c' hc l x h2) fun k d out hf => ?_
      have hk' : k ≠ .unexpectedEof := by
        rintro rfl
        rcases hf.2 with hf | hf
        · exact (hF hcat).1 hf
        · exact (hF hcat).2 hf.1
      obtain ⟨d', e1, e2⟩ := hk.err (c' 0) hk' d
      refine ⟨d', e1, .of fun n => ?_⟩
      obtain ⟨d2, e3, e4⟩ := hk.err (c' n) hk' d
      obtain ⟨v, b, x, rfl⟩ := hk
      cases x <;> cases k <;> first | exact absurd rfl hk' | exact e2
  | .loop b, h => by
    simp only [Ex.eval, Ex.evalD, hc.fuel]; simp only [Ex.Ok] at h
    exact Sim.iterate (b.sim ht hF c c' hc l.arg h) c.fuel (fun n => n) fun N => ⟨N, fun _ h => h⟩
  | .break_, _ => by simp only [Ex.eval, Ex.evalD]; exact .out nofun
  | .return_ e, h => by
    simp only [Ex.eval, Ex.evalD]; simp only [Ex.Ok] at h
    exact (e.sim ht hF c c' hc l.arg h).bind fun _ => .out nofun
  | .panic, _ => by simp only [Ex.eval, Ex.evalD]; exact .out nofun
  | .errOf _, _ => by simp only [Ex.eval, Ex.evalD]; exact .get
  | .errMissing _, _ => by
    simp only [Ex.eval, Ex.evalD, hc.mod]
    split
    · exact .pure
    · exact .none

theorem Args.sim {F : Faults} {cat : Bool} {t : Rt.Target} (ht : t.bits = 64) (hF : cat = true → ¬ F.reads .unexpectedEof ∧ ¬ F.writes .unexpectedEof)
    (c : Ctx) (c' : Nat → DCtx) (hc : CtxSim F cat t c c') (l : Level) : (es : Args) → es.Ok cat l.arg → (k : List Val → M) → (k' : Nat → List Val → DM) →
    (∀ vs, Sim F l (k vs) (fun n => k' n vs)) → Sim F l (es.eval c k) (fun n => es.evalD (c' n) (k' n))
  | .nil, _, k, k', hk => by simp only [Args.eval, Args.evalD]; exact hk _
  | .cons e rest, h, k, k', hk => by
    simp only [Args.eval, Args.evalD]; simp only [Args.Ok] at h
    exact (e.sim ht hF c c' hc l.arg h.1).bind fun v => rest.sim ht hF c c' hc l h.2 _ (fun n vs => k' n (v :: vs)) fun vs => hk _

theorem Args.sumSim {F : Faults} {cat : Bool} {t : Rt.Target} (ht : t.bits = 64) (hF : cat = true → ¬ F.reads .unexpectedEof ∧ ¬ F.writes .unexpectedEof)
    (c : Ctx) (c' : Nat → DCtx) (hc : CtxSim F cat t c c') (l : Level) : (es : Args) → es.Ok cat l.arg → Sim F l (es.sum c) (fun n => es.sumD (c' n))
  | .nil, _ => by simp only [Args.sum, Args.sumD]; exact .pure
  | .cons e rest, h => by
    simp only [Args.sum, Args.sumD]; simp only [Args.Ok] at h
    exact (e.sim ht hF c c' hc l.arg h.1).bind fun v => rest.sumFromSim ht hF c c' hc l h.2 v

theorem Args.sumFromSim {F : Faults} {cat : Bool} {t : Rt.Target} (ht : t.bits = 64) (hF : cat = true → ¬ F.reads .unexpectedEof ∧ ¬ F.writes .unexpectedEof)
    (c : Ctx) (c' : Nat → DCtx) (hc : CtxSim F cat t c c') (l : Level) : (es : Args) → es.Ok cat l.arg → (v : Val) →
    Sim F l (es.sumFrom c v) (fun n => es.sumFromD (c' n) v)
  | .nil, _, _ => by simp only [Args.sumFrom, Args.sumFromD]; exact .pure
  | .cons e rest, h, v => by
    simp only [Args.sumFrom, Args.sumFromD, hc.target]; simp only [Args.Ok] at h
    exact (e.sim ht hF c c' hc l.arg h.1).bind fun w => (Sim.bin ht _ _ _).bind fun x => rest.sumFromSim ht hF c c' hc l h.2 x

theorem Args.orSim {F : Faults} {cat : Bool} {t : Rt.Target} (ht : t.bits = 64) (hF : cat = true → ¬ F.reads .unexpectedEof ∧ ¬ F.writes .unexpectedEof)
    (c : Ctx) (c' : Nat → DCtx) (hc : CtxSim F cat t c c') (l : Level) : (es : Args) → es.Ok cat l.arg → Sim F l (es.or c) (fun n => es.orD (c' n))
  | .nil, _ => by simp only [Args.or, Args.orD]; exact .pure
  | .cons e rest, h => by
    simp only [Args.or, Args.orD]; simp only [Args.Ok] at h
    refine (e.sim ht hF c c' hc l.arg h.1).bind fun v => ?_
    cases v with
    | bool v => cases v <;> first | exact .pure | exact rest.orSim ht hF c c' hc l h.2
    | _ => exact .none

theorem Inits.sim {F : Faults} {cat : Bool} {t : Rt.Target} (ht : t.bits = 64) (hF : cat = true → ¬ F.reads .unexpectedEof ∧ ¬ F.writes .unexpectedEof)
    (c : Ctx) (c' : Nat → DCtx) (hc : CtxSim F cat t c c') (l : Level) : (es : Inits) → es.Ok cat l.arg → (k : List (Str × Val) → M) →
    (k' : Nat → List (Str × Val) → DM) → (∀ vs, Sim F l (k vs) (fun n => k' n vs)) → Sim F l (es.eval c k) (fun n => es.evalD (c' n) (k' n))
  | .nil, _, k, k', hk => by simp only [Inits.eval, Inits.evalD]; exact hk _
  | .cons name e rest, h, k, k', hk => by
    simp only [Inits.eval, Inits.evalD]; simp only [Inits.Ok] at h
    exact (e.sim ht hF c c' hc l.arg h.1).bind fun v => rest.sim ht hF c c' hc l h.2 _ (fun n vs => k' n ((name, v) :: vs)) fun vs => hk _

theorem Arms.sim {F : Faults} {cat : Bool} {t : Rt.Target} (ht : t.bits = 64) (hF : cat = true → ¬ F.reads .unexpectedEof ∧ ¬ F.writes .unexpectedEof)
    (c : Ctx) (c' : Nat → DCtx) (hc : CtxSim F cat t c c') (l : Level) (x : Val) : (arms : Arms) → arms.Ok cat l →
    Sim F l (arms.eval c x) (fun n => arms.evalD (c' n) x)
  | .nil, _ => by simp only [Arms.eval, Arms.evalD]; exact .none
  | .cons p b rest, h => by
    simp only [Arms.eval, Arms.evalD, hc.mod]; simp only [Arms.Ok] at h
    cases p.run c.mod x with
    | none => exact .none
    | some r =>
      cases r with
      | some bs => exact (b.sim ht hF c c' hc l h.1).scoped
      | none => exact rest.sim ht hF c c' hc l x h.2
end

/-! ### Programs -/

/-- The functions of a program do not ignore errors of devices. -/
def Prog.Ok (P : Prog) : Prop := ∀ t f e, P t f = some e → ∀ cat, (f = .deserializeFromReaderRef → cat = true) → e.Ok cat f.level

theorem Sim.shift {F : Faults} {l : Level} {m : M} {m' : Nat → DM} (h : Sim F l m (fun n => m' (n + 1))) : Sim F l m m' := by
  intro s o s' e
  obtain ⟨h1, h2⟩ := h s o s' e
  refine ⟨h1, fun d hd => ?_⟩
  have sh : ∀ {p : Nat → Prop}, Ev (fun n => p (n + 1)) → Ev p := fun ⟨N, h⟩ => ⟨N + 1, fun n hn => by
    obtain ⟨k, rfl⟩ : ∃ k, n = k + 1 := ⟨n - 1, by omega⟩
    exact h k (by omega)⟩
  cases h2 d hd with
  | same h0 h1 h2 => exact .same h0 h1 (sh h2)
  | fail h1 h2 => exact .fail h1 (sh h2)
  | hang h2 => exact .hang (sh h2)
  | ret h0 h1 h2 => exact .ret h0 h1 (sh h2)
  | val h0 h1 h2 => exact .val h0 h1 (sh h2)

theorem evalIn_sim {F : Faults} {cat : Bool} {t : Rt.Target} (ht : t.bits = 64) (hF : cat = true → ¬ F.reads .unexpectedEof ∧ ¬ F.writes .unexpectedEof)
    {lim : Nat} {call : TypeId → Fn → List Val → M} {call' : Nat → TypeId → Fn → List Val → DM}
    (hc : ∀ t f vs, (f = .deserializeFromReaderRef → cat = true) → Sim F f.level (call t f vs) (fun n => call' n t f vs)) (k : Nat) (self : TypeId)
    {l : Level} {e : Ex} (he : e.Ok cat l) : Sim F l (evalIn lim call k self e) (fun n => evalInD t lim (call' n) n self e) :=
  e.sim ht hF _ (fun n => ⟨t, lim, self.1, self, call' n, n, fun _ _ => none⟩)
    ⟨fun _ => rfl, fun _ => rfl, fun _ => rfl, fun _ => rfl, fun _ => rfl, hc, fun _ => .none⟩ l he

theorem callFn_sim {F : Faults} {cat : Bool} {t : Rt.Target} (ht : t.bits = 64) (hF : cat = true → ¬ F.reads .unexpectedEof ∧ ¬ F.writes .unexpectedEof)
    (lim : Nat) {P : Prog} (hP : P.Ok) : (k : Nat) → ∀ self f vs, (f = .deserializeFromReaderRef → cat = true) →
    Sim F f.level (callFn lim P k self f vs) (fun n => callFnD t lim P n self f vs)
  | 0, _, _, _, _ => .none
  | k + 1, self, f, vs, hf => by
    refine Sim.shift ?_
    simp only [callFn, callFnD]
    cases he : P self f with
    | none => exact .none
    | some e =>
      have := (evalIn_sim (lim := lim) ht hF (callFn_sim ht hF lim hP k) k self (hP self f e he cat hf)).frame (bs := f.params.zip vs)
      have hl : f.level.tried = f.level := by cases f <;> rfl
      rw [hl] at this
      exact this

/-- The execution on devices, for programs. -/
theorem runs_sim {F : Faults} {cat : Bool} {t : Rt.Target} (ht : t.bits = 64) (hF : cat = true → ¬ F.reads .unexpectedEof ∧ ¬ F.writes .unexpectedEof)
    {lim : Nat} {P : Prog} (hP : P.Ok) {self : TypeId} {l : Level} {e : Ex} (he : e.Ok cat l) {s s' : St} {o : Out} (h : Runs lim P self e s (o, s'))
    {d : DSt} (hd : Rel F s d) : Res F l o s' (fun n => evalInD t lim (callFnD t lim P n) n self e d) := by
  obtain ⟨N, h⟩ := h
  exact (evalIn_sim ht hF (callFn_sim ht hF lim hP N) N self he s o s' (h N (Nat.le_refl _))).2 d hd

end Typical.Gen
