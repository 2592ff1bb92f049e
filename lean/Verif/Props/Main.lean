import Verif.Spec.Main
import Verif.Props.Driver
import Verif.Props.Report

/-!
# C95: what a run prints, does, and returns
-/

namespace Typical

/-! ### Plans -/

/-- A plan: events, and what is said if they fail. -/
def execute (os : Effect → Option Str) : List (CliEvent × (Str → Str)) → Run
  | [] => ([], .ok)
  | (.effect e, error) :: rest => (attempt os e error).andThen (execute os rest)
  | (.stderr s, _) :: rest => Run.andThen ([.stderr s], .ok) (execute os rest)
  | (.stdout s, _) :: rest => Run.andThen ([.stdout s], .ok) (execute os rest)

theorem andThen_assoc (a b c : Run) : (a.andThen b).andThen c = a.andThen (b.andThen c) := by
  obtain ⟨a1, a2⟩ := a
  obtain ⟨b1, b2⟩ := b
  cases a2 <;> cases b2 <;> simp [Run.andThen]

theorem ok_andThen (b : Run) : Run.andThen ([], .ok) b = b := by simp [Run.andThen]

theorem execute_append (os : Effect → Option Str) : ∀ (a b : List (CliEvent × (Str → Str))), execute os (a ++ b) = (execute os a).andThen (execute os b)
  | [], b => by rw [List.nil_append, execute, ok_andThen]
  | (ev, g) :: a, b => by
    rw [List.cons_append]
    cases ev <;> rw [execute, execute_append os a b, execute, andThen_assoc]

theorem execute_cons (os : Effect → Option Str) (p : CliEvent × (Str → Str)) (rest : List (CliEvent × (Str → Str))) :
    execute os (p :: rest) = (execute os [p]).andThen (execute os rest) := execute_append os [p] rest

theorem execute_say (os : Effect → Option Str) (s : Str) : say s = execute os [(.line s, id)] := rfl

theorem execute_attempt (os : Effect → Option Str) (e : Effect) (g : Str → Str) : attempt os e g = execute os [(.effect e, g)] := by
  rw [execute, execute, attempt]
  cases os e <;> simp [Run.andThen]

/-- What a plan gives: all of it, or what comes before the first effect which fails. -/
theorem execute_spec (os : Effect → Option Str) : ∀ (plan : List (CliEvent × (Str → Str))),
    ((plan.map Prod.fst).all (CliEvent.succeeds os) = true ∧ execute os plan = (plan.map Prod.fst, .ok)) ∨
    ((plan.map Prod.fst).all (CliEvent.succeeds os) = false ∧ ∃ before e g reason after, plan = before ++ (.effect e, g) :: after ∧ os e = some reason ∧
      (before.map Prod.fst).all (CliEvent.succeeds os) = true ∧ execute os plan = (before.map Prod.fst, .err (g reason)))
  | [] => .inl ⟨rfl, rfl⟩
  | (.effect e, g) :: rest => by
    rw [execute, attempt]
    cases h : os e with
    | some reason =>
      refine .inr ⟨?_, [], e, g, reason, rest, rfl, h, rfl, rfl⟩
      rw [List.map_cons, List.all_cons, CliEvent.succeeds, h]; rfl
    | none =>
      have hs : CliEvent.succeeds os (.effect e) = true := by rw [CliEvent.succeeds, h]; rfl
      rcases execute_spec os rest with ⟨h1, h2⟩ | ⟨h1, before, e', g', reason, after, h2, h3, h4, h5⟩
      · refine .inl ⟨?_, ?_⟩
        · rw [List.map_cons, List.all_cons, hs, h1]; rfl
        · rw [h2]; rfl
      · refine .inr ⟨?_, (.effect e, g) :: before, e', g', reason, after, ?_, h3, ?_, ?_⟩
        · rw [List.map_cons, List.all_cons, hs, h1]; rfl
        · rw [h2]; rfl
        · rw [List.map_cons, List.all_cons, hs, h4]; rfl
        · rw [h5]; rfl
  | (.stderr s, g) :: rest => by
    rw [execute]
    rcases execute_spec os rest with ⟨h1, h2⟩ | ⟨h1, before, e', g', reason, after, h2, h3, h4, h5⟩
    · refine .inl ⟨?_, ?_⟩
      · rw [List.map_cons, List.all_cons, h1]; rfl
      · rw [h2]; rfl
    · refine .inr ⟨?_, (.stderr s, g) :: before, e', g', reason, after, ?_, h3, ?_, ?_⟩
      · rw [List.map_cons, List.all_cons, h1]; rfl
      · rw [h2]; rfl
      · rw [List.map_cons, List.all_cons, h4]; rfl
      · rw [h5]; rfl
  | (.stdout s, g) :: rest => by
    rw [execute]
    rcases execute_spec os rest with ⟨h1, h2⟩ | ⟨h1, before, e', g', reason, after, h2, h3, h4, h5⟩
    · refine .inl ⟨?_, ?_⟩
      · rw [List.map_cons, List.all_cons, h1]; rfl
      · rw [h2]; rfl
    · refine .inr ⟨?_, (.stdout s, g) :: before, e', g', reason, after, ?_, h3, ?_, ?_⟩
      · rw [List.map_cons, List.all_cons, h1]; rfl
      · rw [h2]; rfl
      · rw [List.map_cons, List.all_cons, h4]; rfl
      · rw [h5]; rfl

/-! ### `generate` -/

theorem countText_loaded (n : Nat) : countText n "schema".toList ++ " loaded.".toList = loadedText n := by
  unfold countText loadedText
  split
  · split
    · rfl
    · contradiction
  · split
    · contradiction
    · simp only [List.append_assoc, List.cons_append]
      rfl

/-- An event with the text of `generate` for its failure. -/
def failing (P : Style) (ev : CliEvent) : CliEvent × (Str → Str) :=
  match ev with
  | .effect e => (ev, generateFailure P e)
  | _ => (ev, id)

theorem failing_fst (P : Style) (evs : List CliEvent) : (evs.map (failing P)).map Prod.fst = evs := by
  induction evs with
  | nil => rfl
  | cons ev evs ih => rw [List.map_cons, List.map_cons, ih]; cases ev <;> rfl

theorem execute_stdout (os : Effect → Option Str) (P : Style) : ∀ ss : List Str,
    execute os ((ss.map CliEvent.stdout).map (failing P)) = (ss.map CliEvent.stdout, .ok)
  | [] => rfl
  | s :: ss => by
    show Run.andThen ([.stdout s], .ok) (execute os ((ss.map CliEvent.stdout).map (failing P))) = _
    rw [execute_stdout os P ss]
    rfl

theorem outputRun_eq (X : Setting) (language : Str) (path : Option FPath) (text : Str) :
    outputRun X language path text = execute X.os ((plannedFile X.style.code language path text).map (failing X.style)) := by
  cases path with
  | none => rfl
  | some p =>
    unfold outputRun plannedFile
    dsimp only
    rw [List.map_append, List.map_cons, List.cons_append, execute_cons, execute_append]
    have hc : createRun X p = execute X.os ((p.parent.toList.map (fun d => CliEvent.effect (.createDir d))).map (failing X.style)) := by
      unfold createRun
      cases p.parent with
      | none => rfl
      | some d => exact execute_attempt _ _ _
    rw [← hc, List.map_cons, List.map_cons, List.map_nil, execute_cons (rest := [_])]
    rw [execute_attempt]
    rfl

theorem join_rel (dir : FPath) (p : List Str) : dir.join (.rel p) = ⟨dir.absolute, dir.parts ++ p⟩ := by rfl

theorem listRun_eq (os : Effect → Option Str) (P : Style) {path dir : FPath} (hd : path.parent = some dir) (list : Bool) (S : List (Namespace × LoadedFile)) :
    listRun path list S = execute os ((if list then .line "Listing schemas\u2026".toList ::
      (S.map (fun e => e.2.path)).map (fun p => CliEvent.stdout ((FPath.mk dir.absolute (dir.parts ++ p)).text ++ ['\n'])) else []).map (failing P)) := by
  cases list with
  | false => rfl
  | true =>
    unfold listRun
    rw [hd, if_pos rfl, if_pos rfl, List.map_cons, execute_cons]
    have e : (S.map (fun e => e.2.path)).map (fun p => CliEvent.stdout ((FPath.mk dir.absolute (dir.parts ++ p)).text ++ ['\n'])) =
        ((S.map (fun e => (FPath.mk dir.absolute (dir.parts ++ e.2.path)).text ++ ['\n'])).map CliEvent.stdout) := by
      simp only [List.map_map]; rfl
    rw [e, execute_stdout]
    simp only [List.map_map]
    rfl

/-- The whole of `generate`, for valid schemas. -/
theorem generateRun_eq {X : Setting} {fs : FileSystem} {fuel : Nat} {path dir : FPath} {S : List (Namespace × LoadedFile)}
    (hl : loadSchemas X.T fs fuel path = .ok S) (hv : validate (S.map (fun e => (e.1, e.2.schema))) = .ok []) (hd : path.parent = some dir) (list : Bool)
    (rust ts : Option FPath) :
    generateRun X fs fuel path list rust ts = execute X.os ((plannedGenerate X.style.code dir (S.map (fun e => e.2.path)) list rust ts
      (X.rustText (S.map (fun e => (e.1, e.2.schema)))) (X.tsText (S.map (fun e => (e.1, e.2.schema))))).map (failing X.style)) := by
  unfold generateRun loadRun
  rw [hl]
  dsimp only
  rw [hv]
  dsimp only
  rw [countText_loaded, listRun_eq X.os X.style hd, outputRun_eq, outputRun_eq]
  unfold plannedGenerate
  rw [List.length_map]
  simp only [List.map_append, execute_append, andThen_assoc, List.map_cons, execute_cons X.os _ (_ :: _)]
  rfl

/-- **C95 (generate).** If the schemas load and are well formed, a run of `generate` prints and does what is planned, in this order, and exits with code 0; or an effect is refused by the operating
system, and it prints and does what comes before that effect, prints the failure, with the reason, to standard error, and exits with code 1. -/
theorem C95_generate {X : Setting} {script : Shell → Str} {fs : FileSystem} {fuel : Nat} {path dir : FPath} {S : List (Namespace × LoadedFile)}
    (hl : loadSchemas X.T fs fuel path = .ok S) (hw : Schemas.WellFormed (S.map (fun e => (e.1, e.2.schema)))) (hd : path.parent = some dir) (list : Bool)
    (rust ts : Option FPath) :
    let schemas := S.map (fun e => (e.1, e.2.schema))
    let planned := plannedGenerate X.style.code dir (S.map (fun e => e.2.path)) list rust ts (X.rustText schemas) (X.tsText schemas)
    (planned.all (CliEvent.succeeds X.os) = true ∧ mainRun X script fs fuel (.generate path list rust ts) = (planned, .code 0)) ∨
    ∃ before e reason after, planned = before ++ .effect e :: after ∧ before.all (CliEvent.succeeds X.os) = true ∧ X.os e = some reason ∧
      mainRun X script fs fuel (.generate path list rust ts) = (before ++ [.line (generateFailure X.style e reason)], .code 1) := by
  intro schemas planned
  have hv : validate schemas = .ok [] := (C28_accepts_exactly_well_formed _ (C40_establishes_loaded hl)).mpr hw
  have h := generateRun_eq (X := X) hl hv hd list rust ts
  unfold mainRun
  rw [entryRun, h]
  rcases execute_spec X.os (planned.map (failing X.style)) with ⟨h1, h2⟩ | ⟨-, before, e, g, reason, after, h2, h3, h4, h5⟩
  · rw [h2]
    rw [failing_fst] at h1 ⊢
    exact .inl ⟨h1, rfl⟩
  · rw [h5]
    refine .inr ⟨before.map Prod.fst, e, reason, after.map Prod.fst, ?_, h4, h3, ?_⟩
    · have := congrArg (List.map Prod.fst) h2
      rwa [failing_fst, List.map_append, List.map_cons] at this
    · have hmem : ((CliEvent.effect e, g) : CliEvent × (Str → Str)) ∈ planned.map (failing X.style) := by rw [h2]; simp
      obtain ⟨ev, -, hev⟩ := List.mem_map.mp hmem
      have hg : g = generateFailure X.style e := by
        cases ev with
        | effect e' =>
          rw [failing] at hev
          injection hev with a b
          injection a with a
          subst a
          exact b.symm
        | stderr s => cases hev
        | stdout s => cases hev
      rw [hg]
      rfl

/-- **C95 (invalid schemas).** If loading fails, or the schemas are not valid, `generate` prints what it is doing and then the errors (see C93), all of it to standard error, does nothing else, and exits with code 1. -/
theorem C95_generate_errors {X : Setting} (hT : X.T.Ascii) (hS : X.T.SpaceApart) {script : Shell → Str} {fs : FileSystem} {fuel : Nat} {path : FPath} (list : Bool)
    (rust ts : Option FPath) :
    (∀ es, loadSchemas X.T fs fuel path = .err es → ∃ text, loadText X.T X.style X.wording (envFor fs path) es = some text ∧
      mainRun X script fs fuel (.generate path list rust ts) = ([.line "Loading schemas\u2026".toList, .line text], .code 1)) ∧
    (∀ S e es, loadSchemas X.T fs fuel path = .ok S → validate (S.map (fun e => (e.1, e.2.schema))) = .ok (e :: es) →
      ∃ text, validationText X.T X.style X.typeText S (e :: es) = some text ∧
        mainRun X script fs fuel (.generate path list rust ts) =
          ([.line "Loading schemas\u2026".toList, .line (loadedText S.length), .line "Validating schemas\u2026".toList, .line text], .code 1)) := by
  constructor
  · intro es h
    have ht : ∃ text, loadText X.T X.style X.wording (envFor fs path) es = some text := by
      unfold envFor
      cases hE : loadEnv fs path with
      | none =>
        have : es = [.notAFile] := by
          unfold loadSchemas at h
          rw [hE] at h
          injection h with h
          exact h.symm
        subst this
        exact ⟨_, rfl⟩
      | some p =>
        obtain ⟨E, name⟩ := p
        obtain ⟨-, out, h1, -⟩ := C93_loading hT hS hE h X.style X.wording
        exact ⟨out, h1⟩
    obtain ⟨text, ht⟩ := ht
    refine ⟨text, ht, ?_⟩
    unfold mainRun
    rw [entryRun]
    unfold generateRun loadRun
    rw [h]
    dsimp only
    rw [ht]
    rfl
  · intro S e es h hv
    obtain ⟨-, -, -, text, -, ht, -⟩ := C93_validation hT hS h hv X.style X.typeText
    refine ⟨text, ht, ?_⟩
    unfold mainRun
    rw [entryRun]
    unfold generateRun loadRun
    rw [h]
    dsimp only
    rw [hv]
    dsimp only
    rw [ht, countText_loaded]
    rfl

/-! ### `format` -/

/-- The plan for one file. -/
def formatStage (X : Setting) (dir : FPath) (check : Bool) (e : Namespace × LoadedFile) : List (CliEvent × (Str → Str)) :=
  (.line ("  ".toList ++ X.style.code (FPath.mk dir.absolute (dir.parts ++ e.2.path)).text), id) ::
    (if e.2.contents ≠ format X.T X.F e.2.schema ∧ check = false then
      [(.effect (.write ⟨dir.absolute, dir.parts ++ e.2.path⟩ (format X.T X.F e.2.schema)), fun reason =>
        withReason X.style (throwText X.style "Unable to write file.".toList (some (pathText e.2.path)) none) (some reason))] else [])

theorem formatLoopRun_eq (X : Setting) (dir : FPath) (check : Bool) (next : Bool → Run) : ∀ (S : List (Namespace × LoadedFile)) (any : Bool),
    formatLoopRun X dir check S any next = (execute X.os (S.flatMap (formatStage X dir check))).andThen
      (next (any || S.any (fun e => e.2.contents != format X.T X.F e.2.schema)))
  | [], any => by
    rw [formatLoopRun, List.flatMap_nil, execute, ok_andThen, List.any_nil, Bool.or_false]
  | e :: S, any => by
    rw [formatLoopRun, List.flatMap_cons, execute_append, formatStage, execute_cons]
    dsimp only
    rw [formatLoopRun_eq X dir check next S, andThen_assoc, andThen_assoc, join_rel]
    have ha : ((if (e.2.contents != format X.T X.F e.2.schema) = true then true else any) || S.any (fun e => e.2.contents != format X.T X.F e.2.schema)) =
        (any || (e :: S).any (fun e => e.2.contents != format X.T X.F e.2.schema)) := by
      rw [List.any_cons]
      cases (e.2.contents != format X.T X.F e.2.schema) <;> cases any <;> simp
    rw [ha]
    by_cases hc : e.2.contents ≠ format X.T X.F e.2.schema ∧ check = false
    · rw [if_pos (by simp [hc.1, hc.2]), if_pos hc, execute_attempt]
      rfl
    · have hc' : ¬ ((e.2.contents != format X.T X.F e.2.schema) && !check) = true := by
        intro h
        apply hc
        simpa using h
      rw [if_neg hc', if_neg hc]
      rfl

/-- The files, with their texts and formatted texts. -/
def formatFiles (X : Setting) (S : List (Namespace × LoadedFile)) : List (List Str × Str × Str) :=
  S.map (fun e => (e.2.path, e.2.contents, format X.T X.F e.2.schema))

theorem formatStage_fst (X : Setting) (dir : FPath) (check : Bool) (S : List (Namespace × LoadedFile)) :
    (S.flatMap (formatStage X dir check)).map Prod.fst = (formatFiles X S).flatMap (fun f =>
      .line ("  ".toList ++ X.style.code (FPath.mk dir.absolute (dir.parts ++ f.1)).text) ::
        (if f.2.1 ≠ f.2.2 ∧ check = false then [.effect (.write ⟨dir.absolute, dir.parts ++ f.1⟩ f.2.2)] else [])) := by
  induction S with
  | nil => rfl
  | cons e S ih =>
    unfold formatFiles at *
    rw [List.map_cons, List.flatMap_cons, List.flatMap_cons, List.map_append, ih]
    congr 1
    unfold formatStage
    rw [List.map_cons]
    split <;> rfl

/-- The plan, with the texts of failures. -/
def formatPlan (X : Setting) (dir : FPath) (check : Bool) (S : List (Namespace × LoadedFile)) : List (CliEvent × (Str → Str)) :=
  [(.line "Loading schemas\u2026".toList, id), (.line (loadedText S.length), id),
    (.line ((if check then "Checking".toList else "Formatting".toList) ++ " schemas\u2026".toList), id)] ++ S.flatMap (formatStage X dir check)

theorem formatPlan_fst (X : Setting) (dir : FPath) (check : Bool) (S : List (Namespace × LoadedFile)) :
    (formatPlan X dir check S).map Prod.fst = plannedFormat X.style.code dir (formatFiles X S) check := by
  unfold formatPlan plannedFormat
  rw [List.map_append, formatStage_fst]
  have : (formatFiles X S).length = S.length := by simp [formatFiles]
  rw [this]
  rfl

theorem formatRun_eq {X : Setting} {fs : FileSystem} {fuel : Nat} {path dir : FPath} {S : List (Namespace × LoadedFile)}
    (hl : loadSchemas X.T fs fuel path = .ok S) (hd : path.parent = some dir) (check : Bool) :
    formatRun X fs fuel path check = (execute X.os (formatPlan X dir check S)).andThen
      (if check && S.any (fun e => e.2.contents != format X.T X.F e.2.schema) then ([], .err (throwText X.style ("Formatting mismatch. Please run ".toList ++
          X.style.code ("typical format ".toList ++ path.text) ++ ".".toList) none none))
        else say "Done.".toList) := by
  unfold formatRun loadRun
  rw [hl]
  dsimp only
  rw [hd]
  dsimp only
  rw [formatLoopRun_eq, countText_loaded, Bool.false_or]
  unfold formatPlan
  rw [execute_append, execute_cons X.os _ (_ :: _), execute_cons X.os _ (_ :: _), andThen_assoc, andThen_assoc, andThen_assoc]
  rfl

/-- **C95 (format).** If the schemas load, a run of `format` names each file and writes those whose text is to change, and then: exits with code 0, having printed `Done.`, if nothing fails and, with `--check`, no text
is to change; with `--check`, if some text is to change, says so, with the command which would change it, and exits with code 1; or a file cannot be written, and it says which and why, does nothing more, and exits with code 1. It prints
nothing to standard output. -/
theorem C95_format {X : Setting} {script : Shell → Str} {fs : FileSystem} {fuel : Nat} {path dir : FPath} {S : List (Namespace × LoadedFile)}
    (hl : loadSchemas X.T fs fuel path = .ok S) (hd : path.parent = some dir) (check : Bool) :
    let planned := plannedFormat X.style.code dir (S.map (fun e => (e.2.path, e.2.contents, format X.T X.F e.2.schema))) check
    ((check = true → ∀ e ∈ S, e.2.contents = format X.T X.F e.2.schema) ∧ planned.all (CliEvent.succeeds X.os) = true ∧
      mainRun X script fs fuel (.format path check) = (planned ++ [.line "Done.".toList], .code 0)) ∨
    (check = true ∧ (∃ e ∈ S, e.2.contents ≠ format X.T X.F e.2.schema) ∧ mainRun X script fs fuel (.format path check) =
      (planned ++ [.line (X.style.redBold "[Error]".toList ++ " Formatting mismatch. Please run ".toList ++ X.style.code ("typical format ".toList ++ path.text) ++ ".".toList)], .code 1)) ∨
    (check = false ∧ ∃ before e reason after, e ∈ S ∧ e.2.contents ≠ format X.T X.F e.2.schema ∧
      planned = before ++ .effect (.write ⟨dir.absolute, dir.parts ++ e.2.path⟩ (format X.T X.F e.2.schema)) :: after ∧ before.all (CliEvent.succeeds X.os) = true ∧
      X.os (.write ⟨dir.absolute, dir.parts ++ e.2.path⟩ (format X.T X.F e.2.schema)) = some reason ∧
      mainRun X script fs fuel (.format path check) =
        (before ++ [.line (withReason X.style (throwText X.style "Unable to write file.".toList (some (pathText e.2.path)) none) (some reason))], .code 1)) := by
  intro planned
  unfold mainRun
  rw [entryRun, formatRun_eq hl hd]
  have hp : (formatPlan X dir check S).map Prod.fst = planned := formatPlan_fst X dir check S
  rcases execute_spec X.os (formatPlan X dir check S) with ⟨h1, h2⟩ | ⟨-, before, e, g, reason, after, h2, h3, h4, h5⟩
  · rw [h2, hp]
    rw [hp] at h1
    by_cases hc : (check && S.any (fun e => e.2.contents != format X.T X.F e.2.schema)) = true
    · rw [if_pos hc]
      rw [Bool.and_eq_true, List.any_eq_true] at hc
      obtain ⟨rfl, e, he, hne⟩ := hc
      refine .inr (.inl ⟨rfl, ⟨e, he, by simpa using hne⟩, ?_⟩)
      simp only [Run.andThen, finish, List.append_nil, throwText, CliEvent.line]
      refine congrArg (fun t => (planned ++ [CliEvent.stderr t], Exit.code 1)) ?_
      rw [show " Formatting mismatch. Please run ".toList = ' ' :: "Formatting mismatch. Please run ".toList from rfl]
      simp only [List.append_assoc, List.cons_append]
    · rw [if_neg hc]
      refine .inl ⟨?_, h1, rfl⟩
      rintro rfl e he
      rw [Bool.true_and, List.any_eq_true] at hc
      by_contra hne
      exact hc ⟨e, he, by simpa using hne⟩
  · have hmem : ((CliEvent.effect e, g) : CliEvent × (Str → Str)) ∈ formatPlan X dir check S := by rw [h2]; simp
    have hstage : ∃ x ∈ S, ((CliEvent.effect e, g) : CliEvent × (Str → Str)) ∈ formatStage X dir check x := by
      unfold formatPlan at hmem
      rcases List.mem_append.mp hmem with hmem | hmem
      · exfalso
        rcases List.mem_cons.mp hmem with h | hmem
        · cases h
        · rcases List.mem_cons.mp hmem with h | hmem
          · cases h
          · rcases List.mem_cons.mp hmem with h | hmem
            · cases h
            · cases hmem
      · exact List.mem_flatMap.mp hmem
    obtain ⟨x, hx, hs⟩ := hstage
    unfold formatStage at hs
    rcases List.mem_cons.mp hs with hs | hs
    · cases hs
    · by_cases hc : x.2.contents ≠ format X.T X.F x.2.schema ∧ check = false
      · rw [if_pos hc] at hs
        rcases List.mem_cons.mp hs with hs | hs
        · injection hs with ee eg
          injection ee with ee
          subst ee
          subst eg
          refine .inr (.inr ⟨hc.2, before.map Prod.fst, x, reason, after.map Prod.fst, hx, hc.1, ?_, h4, h3, ?_⟩)
          · rw [← hp, h2, List.map_append, List.map_cons]
          · rw [h5]; rfl
        · cases hs
      · rw [if_neg hc] at hs; cases hs

/-- **C95 (format, files which cannot be loaded).** The errors are printed to standard error, nothing else is done, and the exit code is 1. -/
theorem C95_format_errors {X : Setting} (hT : X.T.Ascii) (hS : X.T.SpaceApart) {script : Shell → Str} {fs : FileSystem} {fuel : Nat} {path : FPath} (check : Bool)
    {es : List LoadErr} (h : loadSchemas X.T fs fuel path = .err es) :
    ∃ text, loadText X.T X.style X.wording (envFor fs path) es = some text ∧
      mainRun X script fs fuel (.format path check) = ([.line "Loading schemas\u2026".toList, .line text], .code 1) := by
  obtain ⟨text, ht, -⟩ := (C95_generate_errors (script := script) hT hS false none none).1 es h
  refine ⟨text, ht, ?_⟩
  unfold mainRun
  rw [entryRun]
  unfold formatRun loadRun
  rw [h]
  dsimp only
  rw [ht]
  rfl

/-! ### Standard output -/

theorem stdoutText_append : ∀ a b : List CliEvent, stdoutText (a ++ b) = stdoutText a ++ stdoutText b
  | [], b => rfl
  | .stdout s :: a, b => by rw [List.cons_append, stdoutText, stdoutText, stdoutText_append a b, List.append_assoc]
  | .stderr s :: a, b => by rw [List.cons_append, stdoutText, stdoutText, stdoutText_append a b] <;> simp
  | .effect s :: a, b => by rw [List.cons_append, stdoutText, stdoutText, stdoutText_append a b] <;> simp

/-- Standard output is empty up to there. -/
theorem stdoutText_file (code : Str → Str) (language : Str) (path : Option FPath) (text : Str) : stdoutText (plannedFile code language path text) = [] := by
  cases path with
  | none => rfl
  | some p =>
    unfold plannedFile
    dsimp only
    cases p.parent with
    | none => rfl
    | some d => rfl

theorem stdoutText_prefix {a b : List CliEvent} (h : stdoutText (a ++ b) = []) : stdoutText a = [] := by
  rw [stdoutText_append] at h
  exact (List.append_eq_nil_iff.mp h).1

theorem stdoutText_list (dir : FPath) : ∀ files : List (List Str), stdoutText (files.map (fun p => CliEvent.stdout ((FPath.mk dir.absolute (dir.parts ++ p)).text ++ ['\n']))) =
    files.flatMap (fun p => (FPath.mk dir.absolute (dir.parts ++ p)).text ++ ['\n'])
  | [] => rfl
  | p :: files => by rw [List.map_cons, stdoutText, stdoutText_list dir files, List.flatMap_cons]

/-- **C95 (standard output of generate).** With `--list-schemas`, and if the schemas load and are well formed, standard output is exactly the list of the paths of the schemas, one per line, even if the run
fails later; in all other cases nothing is printed to it. -/
theorem C95_generate_stdout {X : Setting} {script : Shell → Str} {fs : FileSystem} {fuel : Nat} {path : FPath} (list : Bool) (rust ts : Option FPath) :
    (∀ S dir, loadSchemas X.T fs fuel path = .ok S → Schemas.WellFormed (S.map (fun e => (e.1, e.2.schema))) → path.parent = some dir → list = true →
      stdoutText (mainRun X script fs fuel (.generate path list rust ts)).1 = S.flatMap (fun e => (FPath.mk dir.absolute (dir.parts ++ e.2.path)).text ++ ['\n'])) ∧
    ((list = false ∨ ∀ S, loadSchemas X.T fs fuel path = .ok S → ¬ Schemas.WellFormed (S.map (fun e => (e.1, e.2.schema)))) →
      stdoutText (mainRun X script fs fuel (.generate path list rust ts)).1 = []) := by
  have main : ∀ S dir, loadSchemas X.T fs fuel path = .ok S → Schemas.WellFormed (S.map (fun e => (e.1, e.2.schema))) → path.parent = some dir →
      stdoutText (mainRun X script fs fuel (.generate path list rust ts)).1 =
        if list then (S.map (fun e => e.2.path)).flatMap (fun p => (FPath.mk dir.absolute (dir.parts ++ p)).text ++ ['\n']) else [] := by
    intro S dir hl hw hd
    have h := C95_generate (X := X) (script := script) hl hw hd list rust ts
    dsimp only at h
    generalize X.rustText (S.map (fun e => (e.1, e.2.schema))) = rt at h
    generalize X.tsText (S.map (fun e => (e.1, e.2.schema))) = tt at h
    generalize hfiles : S.map (fun e => e.2.path) = files at h ⊢
    have hsplit : ∃ A B, plannedGenerate X.style.code dir files list rust ts rt tt = A ++ B ∧ (∀ e, CliEvent.effect e ∉ A) ∧ stdoutText B = [] ∧
        stdoutText A = if list then files.flatMap (fun p => (FPath.mk dir.absolute (dir.parts ++ p)).text ++ ['\n']) else [] := by
      refine ⟨[.line "Loading schemas\u2026".toList, .line (loadedText files.length), .line "Validating schemas\u2026".toList] ++
        (if list then .line "Listing schemas\u2026".toList :: files.map (fun p => .stdout ((FPath.mk dir.absolute (dir.parts ++ p)).text ++ ['\n'])) else []),
        plannedFile X.style.code "Rust".toList rust rt ++ plannedFile X.style.code "TypeScript".toList ts tt ++ [.line "Done.".toList], ?_, ?_, ?_, ?_⟩
      · unfold plannedGenerate
        simp only [List.append_assoc]
      · intro e he
        rcases List.mem_append.mp he with he | he
        · rcases List.mem_cons.mp he with h | he
          · cases h
          · rcases List.mem_cons.mp he with h | he
            · cases h
            · rcases List.mem_cons.mp he with h | he
              · cases h
              · cases he
        · cases list with
          | false => cases he
          | true =>
            rw [if_pos rfl] at he
            rcases List.mem_cons.mp he with h | he
            · cases h
            · obtain ⟨p, -, hp⟩ := List.mem_map.mp he
              cases hp
      · rw [stdoutText_append, stdoutText_append, stdoutText_file, stdoutText_file]
        rfl
      · rw [stdoutText_append]
        cases list with
        | false => rfl
        | true =>
          rw [if_pos rfl, if_pos rfl]
          exact stdoutText_list dir files
    obtain ⟨A, B, e1, e2, e3, e4⟩ := hsplit
    rw [e1] at h
    rcases h with ⟨-, h⟩ | ⟨before, e, reason, after, h1, -, -, h⟩
    · rw [h, ← e4, stdoutText_append, e3, List.append_nil]
    · rw [h, ← e4]
      rcases List.append_eq_append_iff.mp h1 with ⟨C, h2, h3⟩ | ⟨C, h2, h3⟩
      · rw [h2, stdoutText_append, stdoutText_append]
        have : stdoutText C = [] := by
          rw [h3] at e3
          exact stdoutText_prefix e3
        rw [this]
        rw [List.append_nil]
        exact List.append_nil _
      · cases C with
        | nil =>
          rw [List.append_nil] at h2
          rw [← h2, stdoutText_append]
          exact List.append_nil _
        | cons c C =>
          rw [List.cons_append] at h3
          injection h3 with h3 _
          exact absurd (by rw [h2, ← h3]; simp) (e2 e)
  constructor
  · rintro S dir hl hw hd rfl
    rw [main S dir hl hw hd, if_pos rfl, List.flatMap_map]
  · intro hno
    cases hl : loadSchemas X.T fs fuel path with
    | ok S =>
      obtain ⟨E, name, hE, hd, -⟩ := load_parent hl
      by_cases hw : Schemas.WellFormed (S.map (fun e => (e.1, e.2.schema)))
      · rcases hno with rfl | hno
        · rw [main S _ hl hw hd]; rfl
        · exact absurd hw (hno S hl)
      · have hv : validate (S.map (fun e => (e.1, e.2.schema))) ≠ .ok [] := fun h => hw ((C28_accepts_exactly_well_formed _ (C40_establishes_loaded hl)).mp h)
        unfold mainRun
        rw [entryRun]
        unfold generateRun loadRun
        rw [hl]
        dsimp only
        cases hvv : validate (S.map (fun e => (e.1, e.2.schema))) with
        | error _ => rfl
        | ok es =>
          cases es with
          | nil => exact absurd hvv hv
          | cons v vs =>
            dsimp only
            cases validationText X.T X.style X.typeText S (v :: vs) <;> rfl
    | err es =>
      unfold mainRun
      rw [entryRun]
      unfold generateRun loadRun
      rw [hl]
      dsimp only
      cases loadText X.T X.style X.wording (envFor fs path) es <;> rfl
    | panic =>
      unfold mainRun
      rw [entryRun]
      unfold generateRun loadRun
      rw [hl]
      rfl
    | running =>
      unfold mainRun
      rw [entryRun]
      unfold generateRun loadRun
      rw [hl]
      rfl

theorem andThen_silent {a b : Run} (ha : stdoutText a.1 = []) (hb : stdoutText b.1 = []) : stdoutText (a.andThen b).1 = [] := by
  obtain ⟨a1, a2⟩ := a
  cases a2 with
  | ok =>
    show stdoutText (a1 ++ b.1) = []
    rw [stdoutText_append, hb, List.append_nil]
    exact ha
  | err _ => exact ha
  | panic => exact ha
  | running => exact ha

theorem attempt_silent (os : Effect → Option Str) (e : Effect) (g : Str → Str) : stdoutText (attempt os e g).1 = [] := by
  unfold attempt
  cases os e <;> rfl

theorem formatLoop_silent (X : Setting) (dir : FPath) (check : Bool) {next : Bool → Run} (hn : ∀ b, stdoutText (next b).1 = []) :
    ∀ (S : List (Namespace × LoadedFile)) (any : Bool), stdoutText (formatLoopRun X dir check S any next).1 = []
  | [], any => hn any
  | e :: S, any => by
    rw [formatLoopRun]
    refine andThen_silent rfl (andThen_silent ?_ (formatLoop_silent X dir check hn S _))
    split
    · exact attempt_silent _ _ _
    · rfl

/-- **C95 (standard output of format).** `format` prints nothing to standard output, whatever happens. -/
theorem C95_format_stdout {X : Setting} {script : Shell → Str} {fs : FileSystem} {fuel : Nat} (path : FPath) (check : Bool) :
    stdoutText (mainRun X script fs fuel (.format path check)).1 = [] := by
  have h : stdoutText (formatRun X fs fuel path check).1 = [] := by
    unfold formatRun loadRun
    refine andThen_silent rfl ?_
    cases loadSchemas X.T fs fuel path with
    | ok S =>
      refine andThen_silent rfl ?_
      cases path.parent with
      | none => rfl
      | some dir =>
        refine andThen_silent rfl (formatLoop_silent X dir check ?_ S false)
        intro b
        split <;> rfl
    | err es =>
      dsimp only
      cases loadText X.T X.style X.wording (envFor fs path) es <;> rfl
    | panic => rfl
    | running => rfl
  unfold mainRun
  rw [entryRun]
  unfold finish
  cases (formatRun X fs fuel path check).2 with
  | ok => exact h
  | err t =>
    show stdoutText (_ ++ _) = []
    rw [stdoutText_append, h]
    rfl
  | panic => exact h
  | running => exact h

/-! ### Agreement with the model of the subcommands -/

/-- The exit codes. -/
def Outcome.exit : Outcome → Exit
  | .success => .code 0
  | .failure => .code 1
  | .panic => .panic
  | .running => .running

/-- Not a line of the list. -/
def Effect.onDisk : Effect → Bool
  | .list _ => false
  | _ => true

theorem effectsOf_append : ∀ a b : List CliEvent, effectsOf (a ++ b) = effectsOf a ++ effectsOf b
  | [], b => rfl
  | .effect s :: a, b => by rw [List.cons_append, effectsOf, effectsOf, effectsOf_append a b, List.cons_append]
  | .stderr s :: a, b => by rw [List.cons_append, effectsOf, effectsOf, effectsOf_append a b] <;> simp
  | .stdout s :: a, b => by rw [List.cons_append, effectsOf, effectsOf, effectsOf_append a b] <;> simp

theorem option_cases {α : Type} (o : Option α) : o = none ∨ ∃ a, o = some a := by cases o <;> simp

theorem effectsOf_stdout {α : Type} (f : α → Str) : ∀ l : List α, effectsOf (l.map (fun a => CliEvent.stdout (f a))) = []
  | [] => rfl
  | a :: l => by rw [List.map_cons, effectsOf, effectsOf_stdout f l]; simp

theorem outputRun_driver (X : Setting) (language : Str) (path : Option FPath) (text : Str) :
    effectsOf (outputRun X language path text).1 = (writeRequested (fun e => (X.os e).isNone) path text).2 ∧
    ((writeRequested (fun e => (X.os e).isNone) path text).1 = true ∧ (outputRun X language path text).2 = .ok ∨
      (writeRequested (fun e => (X.os e).isNone) path text).1 = false ∧ ∃ t, (outputRun X language path text).2 = .err t) := by
  cases path with
  | none => exact ⟨rfl, .inl ⟨rfl, rfl⟩⟩
  | some p =>
    unfold outputRun writeRequested writeOutput createRun parentDir
    dsimp only
    cases p.parent with
    | none =>
      dsimp only
      obtain h | ⟨r, h⟩ := option_cases (X.os (.write p text))
      · simp [attempt, h, Run.andThen, say, effectsOf]
      · simp [attempt, h, Run.andThen, say, effectsOf]
    | some d =>
      dsimp only
      obtain hd | ⟨r, hd⟩ := option_cases (X.os (.createDir d))
      · obtain h | ⟨r, h⟩ := option_cases (X.os (.write p text))
        · simp [attempt, h, hd, Run.andThen, say, effectsOf]
        · simp [attempt, h, hd, Run.andThen, say, effectsOf]
      · simp [attempt, hd, Run.andThen, say, effectsOf]

theorem onDisk_writeRequested (can : Effect → Bool) (path : Option FPath) (text : Str) :
    (writeRequested can path text).2.filter Effect.onDisk = (writeRequested can path text).2 := by
  apply List.filter_eq_self.mpr
  intro e he
  unfold writeRequested writeOutput parentDir at he
  cases path with
  | none => cases he
  | some p =>
    dsimp only at he
    cases hp : p.parent with
    | none =>
      rw [hp] at he
      dsimp only at he
      split at he <;> (try split at he) <;> simp at he
      subst he; rfl
    | some d =>
      rw [hp] at he
      dsimp only at he
      split at he <;> (try split at he) <;> simp at he
      · rcases he with rfl | rfl <;> rfl
      · subst he; rfl

/-- **C95 (agreement, generate).** The run has the effects and the exit code which the model of the subcommand (C44) says. -/
theorem C95_driver_generate {X : Setting} (hT : X.T.Ascii) (hS : X.T.SpaceApart) {script : Shell → Str} {fs : FileSystem} {fuel : Nat} {path : FPath} (list : Bool)
    (rust ts : Option FPath) :
    let run := mainRun X script fs fuel (.generate path list rust ts)
    let model := generateCode X.T X.rustText X.tsText fs fuel (fun e => (X.os e).isNone) path list rust ts
    effectsOf run.1 = model.2.filter Effect.onDisk ∧ run.2 = model.1.exit := by
  intro run model
  cases hl : loadSchemas X.T fs fuel path with
  | panic =>
    simp only [run, model, mainRun, entryRun, generateRun, loadRun, generateCode, hl]
    exact ⟨rfl, rfl⟩
  | running =>
    simp only [run, model, mainRun, entryRun, generateRun, loadRun, generateCode, hl]
    exact ⟨rfl, rfl⟩
  | err es =>
    obtain ⟨text, -, h⟩ := (C95_generate_errors (script := script) hT hS list rust ts).1 es hl
    simp only [run, model, h, generateCode, hl]
    exact ⟨rfl, rfl⟩
  | ok S =>
    obtain ⟨E, name, hE, hd, -⟩ := load_parent hl
    obtain ⟨errors, hv⟩ := C28_returns _ (C40_establishes_loaded hl)
    cases errors with
    | cons e es =>
      obtain ⟨text, -, h⟩ := (C95_generate_errors (script := script) hT hS list rust ts).2 S e es hl hv
      simp only [run, model, h, generateCode, hl, hv]
      exact ⟨rfl, rfl⟩
    | nil =>
      simp only [run, model, mainRun, entryRun, generateRun, loadRun, generateCode, hl, hv]
      have hlist : ∃ listed, listSchemas path list S = some listed ∧ listed.filter Effect.onDisk = [] ∧ (listRun path list S).2 = .ok ∧ effectsOf (listRun path list S).1 = [] := by
        unfold listSchemas listRun
        rw [hd]
        cases list with
        | false => exact ⟨[], rfl, rfl, rfl, rfl⟩
        | true =>
          refine ⟨_, rfl, ?_, rfl, ?_⟩
          · apply List.filter_eq_nil_iff.mpr
            intro e he
            obtain ⟨x, -, rfl⟩ := List.mem_map.mp he
            simp [Effect.onDisk]
          · show effectsOf (S.map _) = []
            exact effectsOf_stdout (fun (e : Namespace × LoadedFile) => (E.base.join (.rel e.2.path)).text ++ ['\n']) S
      obtain ⟨listed, hls, hlf, hl2, hl1⟩ := hlist
      rw [hls]
      dsimp only
      obtain ⟨a1, a2⟩ := outputRun_driver X "Rust".toList rust (X.rustText (S.map (fun e => (e.1, e.2.schema))))
      obtain ⟨b1, b2⟩ := outputRun_driver X "TypeScript".toList ts (X.tsText (S.map (fun e => (e.1, e.2.schema))))
      have fa := onDisk_writeRequested (fun e => (X.os e).isNone) rust (X.rustText (S.map (fun e => (e.1, e.2.schema))))
      have fb := onDisk_writeRequested (fun e => (X.os e).isNone) ts (X.tsText (S.map (fun e => (e.1, e.2.schema))))
      generalize writeRequested (fun e => (X.os e).isNone) rust (X.rustText (S.map (fun e => (e.1, e.2.schema)))) = W1 at a1 a2 fa ⊢
      generalize writeRequested (fun e => (X.os e).isNone) ts (X.tsText (S.map (fun e => (e.1, e.2.schema)))) = W2 at b1 b2 fb ⊢
      generalize outputRun X "Rust".toList rust (X.rustText (S.map (fun e => (e.1, e.2.schema)))) = R1 at a1 a2 ⊢
      generalize outputRun X "TypeScript".toList ts (X.tsText (S.map (fun e => (e.1, e.2.schema)))) = R2 at b1 b2 ⊢
      generalize listRun path list S = L at hl1 hl2 ⊢
      obtain ⟨w1, W1⟩ := W1
      obtain ⟨w2, W2⟩ := W2
      obtain ⟨R1, r1⟩ := R1
      obtain ⟨R2, r2⟩ := R2
      obtain ⟨L, l⟩ := L
      dsimp only at *
      subst hl2
      have drop : ∀ (x y : Str) (z : Str) (l : List CliEvent), effectsOf ([CliEvent.stderr x] ++ ([CliEvent.stderr y] ++ ([CliEvent.stderr z] ++ l))) = effectsOf l := by
        intro x y z l
        rfl
      rcases a2 with ⟨rfl, rfl⟩ | ⟨rfl, t, rfl⟩
      · rcases b2 with ⟨rfl, rfl⟩ | ⟨rfl, t, rfl⟩
        · simp only [Run.andThen, say, finish, Outcome.exit, drop, effectsOf_append, List.filter_append, hlf, fa, fb, a1, b1, hl1, List.nil_append, and_true]
          exact List.append_assoc _ _ _ ▸ List.append_nil _
        · simp only [Run.andThen, say, finish, Outcome.exit, effectsOf_append, List.filter_append, hlf, fa, fb, a1, b1, hl1, List.nil_append, and_true]
          exact List.append_nil _
      · simp only [Run.andThen, say, finish, Outcome.exit, effectsOf_append, List.filter_append, hlf, fa, a1, hl1, List.nil_append, and_true]
        exact List.append_nil _

/-- **C95 (agreement, format).** The same for `format` (C42), if the answer of the operating system does not depend on the text. -/
theorem C95_driver_format {X : Setting} (hT : X.T.Ascii) (hS : X.T.SpaceApart) {script : Shell → Str} {fs : FileSystem} {fuel : Nat} {path : FPath} (check : Bool)
    {can : FPath → Bool} (hcan : ∀ p t, (X.os (.write p t)).isNone = can p) :
    let run := mainRun X script fs fuel (.format path check)
    let model := formatSchema X.T X.F fs fuel can path check
    effectsOf run.1 = model.2.map (fun w => .write w.1 w.2) ∧ run.2 = model.1.exit := by
  intro run model
  cases hl : loadSchemas X.T fs fuel path with
  | panic =>
    simp only [run, model, mainRun, entryRun, formatRun, loadRun, formatSchema, hl]
    exact ⟨rfl, rfl⟩
  | running =>
    simp only [run, model, mainRun, entryRun, formatRun, loadRun, formatSchema, hl]
    exact ⟨rfl, rfl⟩
  | err es =>
    obtain ⟨text, -, h⟩ := C95_format_errors (script := script) hT hS check hl
    simp only [run, model, h, formatSchema, hl]
    exact ⟨rfl, rfl⟩
  | ok S =>
    obtain ⟨E, name, hE, hd, -⟩ := load_parent hl
    simp only [run, model, mainRun, entryRun, formatSchema, hl, hd]
    rw [formatRun_eq hl hd]
    unfold formatPlan
    rw [execute_append]
    have loop : ∀ (S : List (Namespace × LoadedFile)) (any : Bool),
        effectsOf (execute X.os (S.flatMap (formatStage X E.base check))).1 = (formatLoop X.T X.F E.base check can S any).2.map (fun w => Effect.write w.1 w.2) ∧
        ((formatLoop X.T X.F E.base check can S any).1 = some (any || S.any (fun e => e.2.contents != format X.T X.F e.2.schema)) ∧
            (execute X.os (S.flatMap (formatStage X E.base check))).2 = .ok ∨
          (formatLoop X.T X.F E.base check can S any).1 = none ∧ ∃ t, (execute X.os (S.flatMap (formatStage X E.base check))).2 = .err t) := by
      intro S
      induction S with
      | nil =>
        intro any
        refine ⟨rfl, .inl ⟨?_, rfl⟩⟩
        rw [formatLoop, List.any_nil, Bool.or_false]
      | cons e S ih =>
        intro any
        have ha : ((if (e.2.contents != format X.T X.F e.2.schema) = true then true else any) || S.any (fun e => e.2.contents != format X.T X.F e.2.schema)) =
            (any || (e :: S).any (fun e => e.2.contents != format X.T X.F e.2.schema)) := by
          rw [List.any_cons]
          cases (e.2.contents != format X.T X.F e.2.schema) <;> cases any <;> simp
        obtain ⟨i1, i2⟩ := ih (if (e.2.contents != format X.T X.F e.2.schema) = true then true else any)
        rw [ha] at i2
        rw [List.flatMap_cons, execute_append, formatStage, execute_cons, formatLoop]
        dsimp only
        rw [andThen_assoc, join_rel]
        generalize execute X.os (S.flatMap (formatStage X E.base check)) = R at i1 i2 ⊢
        obtain ⟨R, r⟩ := R
        by_cases hc : e.2.contents ≠ format X.T X.F e.2.schema ∧ check = false
        · rw [if_pos hc, if_pos (by simp [hc.1, hc.2]), ← execute_attempt]
          have hw := hcan ⟨E.base.absolute, E.base.parts ++ e.2.path⟩ (format X.T X.F e.2.schema)
          obtain ho | ⟨reason, ho⟩ := option_cases (X.os (.write ⟨E.base.absolute, E.base.parts ++ e.2.path⟩ (format X.T X.F e.2.schema)))
          · rw [ho] at hw
            rw [← hw, attempt, ho]
            refine ⟨?_, i2⟩
            show _ :: effectsOf R = _
            rw [i1]
            rfl
          · rw [ho] at hw
            rw [← hw, attempt, ho]
            exact ⟨rfl, .inr ⟨rfl, _, rfl⟩⟩
        · have hc' : ¬ ((e.2.contents != format X.T X.F e.2.schema) && !check) = true := by
            intro h
            apply hc
            simpa using h
          rw [if_neg hc', if_neg hc]
          exact ⟨i1, i2⟩
    obtain ⟨h1, h2⟩ := loop S false
    generalize execute X.os (S.flatMap (formatStage X E.base check)) = R at h1 h2 ⊢
    generalize formatLoop X.T X.F E.base check can S false = M at h1 h2 ⊢
    obtain ⟨R, r⟩ := R
    obtain ⟨m, M⟩ := M
    dsimp only at h1 h2
    rcases h2 with ⟨rfl, rfl⟩ | ⟨rfl, t, rfl⟩
    · rw [Bool.false_or]
      dsimp only
      by_cases hc : (check && S.any (fun e => e.2.contents != format X.T X.F e.2.schema)) = true
      · rw [if_pos hc, if_pos hc]
        refine ⟨?_, rfl⟩
        show effectsOf ((R ++ []) ++ _) = _
        rw [List.append_nil, effectsOf_append, h1]
        exact List.append_nil _
      · rw [if_neg hc, if_neg hc]
        refine ⟨?_, rfl⟩
        show effectsOf (R ++ _) = _
        rw [effectsOf_append, h1]
        exact List.append_nil _
    · refine ⟨?_, rfl⟩
      show effectsOf (R ++ _) = _
      rw [effectsOf_append, h1]
      exact List.append_nil _

/-! ### The end of a run -/

/-- **C95 (success).** A run of `generate` or `format` which exits with code 0 has printed `Done.` as its last line, to standard error. -/
theorem C95_done {X : Setting} {script : Shell → Str} {fs : FileSystem} {fuel : Nat} {c : Command} (hc : ∀ s, c ≠ .completion s)
    (h : (mainRun X script fs fuel c).2 = .code 0) : (mainRun X script fs fuel c).1.getLast? = some (.line "Done.".toList) := by
  cases c with
  | completion s => exact absurd rfl (hc s)
  | generate path list rust ts =>
    cases hl : loadSchemas X.T fs fuel path with
    | ok S =>
      obtain ⟨E, name, hE, hd, -⟩ := load_parent hl
      by_cases hw : Schemas.WellFormed (S.map (fun e => (e.1, e.2.schema)))
      · rcases C95_generate (X := X) (script := script) hl hw hd list rust ts with ⟨-, h1⟩ | ⟨before, e, reason, after, -, -, -, h1⟩
        · rw [h1]
          dsimp only
          unfold plannedGenerate
          rw [List.getLast?_append]
          rfl
        · rw [h1] at h; cases h
      · exfalso
        have hv : validate (S.map (fun e => (e.1, e.2.schema))) ≠ .ok [] := fun h => hw ((C28_accepts_exactly_well_formed _ (C40_establishes_loaded hl)).mp h)
        simp only [mainRun, entryRun, generateRun, loadRun, hl] at h
        cases hvv : validate (S.map (fun e => (e.1, e.2.schema))) with
        | error _ => rw [hvv] at h; cases h
        | ok es =>
          cases es with
          | nil => exact hv hvv
          | cons v vs =>
            rw [hvv] at h
            dsimp only at h
            generalize validationText X.T X.style X.typeText S (v :: vs) = o at h
            cases o <;> cases h
    | err es =>
      simp only [mainRun, entryRun, generateRun, loadRun, hl] at h
      generalize loadText X.T X.style X.wording (envFor fs path) es = o at h
      cases o <;> cases h
    | panic =>
      simp only [mainRun, entryRun, generateRun, loadRun, hl] at h
      cases h
    | running =>
      simp only [mainRun, entryRun, generateRun, loadRun, hl] at h
      cases h
  | format path check =>
    cases hl : loadSchemas X.T fs fuel path with
    | ok S =>
      obtain ⟨E, name, hE, hd, -⟩ := load_parent hl
      rcases C95_format (X := X) (script := script) hl hd check with ⟨-, -, h1⟩ | ⟨-, -, h1⟩ | ⟨-, before, e, reason, after, -, -, -, -, -, h1⟩
      · rw [h1, List.getLast?_append]
        rfl
      · rw [h1] at h; cases h
      · rw [h1] at h; cases h
    | err es =>
      simp only [mainRun, entryRun, formatRun, loadRun, hl] at h
      generalize loadText X.T X.style X.wording (envFor fs path) es = o at h
      cases o <;> cases h
    | panic =>
      simp only [mainRun, entryRun, formatRun, loadRun, hl] at h
      cases h
    | running =>
      simp only [mainRun, entryRun, formatRun, loadRun, hl] at h
      cases h

/-- **C95 (panics).** `typical` panics only if loading the schemas does. -/
theorem C95_panics {X : Setting} (hT : X.T.Ascii) (hS : X.T.SpaceApart) {script : Shell → Str} {fs : FileSystem} {fuel : Nat} {c : Command}
    (h : (mainRun X script fs fuel c).2 = .panic) : ∃ path, ((∃ list rust ts, c = .generate path list rust ts) ∨ ∃ check, c = .format path check) ∧
      loadSchemas X.T fs fuel path = .panic := by
  cases c with
  | completion s =>
    exfalso
    simp only [mainRun, entryRun, completionRun] at h
    generalize shellNamed X.T s = o at h
    cases o <;> cases h
  | generate path list rust ts =>
    refine ⟨path, .inl ⟨_, _, _, rfl⟩, ?_⟩
    have h1 := (C95_driver_generate (script := script) hT hS list rust ts (fs := fs) (fuel := fuel) (path := path)).2
    rw [h] at h1
    refine C44_panics (rustText := X.rustText) (tsText := X.tsText) (can := fun e => (X.os e).isNone) (list := list) (rust := rust) (ts := ts) ?_
    generalize (generateCode X.T X.rustText X.tsText fs fuel (fun e => (X.os e).isNone) path list rust ts).1 = o at h1 ⊢
    cases o <;> first | rfl | cases h1
  | format path check =>
    refine ⟨path, .inr ⟨_, rfl⟩, ?_⟩
    cases hl : loadSchemas X.T fs fuel path with
    | panic => rfl
    | running =>
      simp only [mainRun, entryRun, formatRun, loadRun, hl] at h
      cases h
    | err es =>
      obtain ⟨text, -, h1⟩ := C95_format_errors (script := script) hT hS check hl
      rw [h1] at h; cases h
    | ok S =>
      obtain ⟨E, name, hE, hd, -⟩ := load_parent hl
      rcases C95_format (X := X) (script := script) hl hd check with ⟨-, -, h1⟩ | ⟨-, -, h1⟩ | ⟨-, before, e, reason, after, -, -, -, -, -, h1⟩ <;>
        (rw [h1] at h; cases h)

/-! ### Shells -/

/-- The name in lower case. -/
theorem lowerName : ∀ s : Shell, (s.name.toList.map Char.toLower) = (match s with
    | .bash => "bash".toList | .fish => "fish".toList | .zsh => "zsh".toList | .powerShell => "powershell".toList | .elvish => "elvish".toList) := by
  intro s
  cases s <;> decide

/-- **C95 (shells).** The script for a shell is printed if what the user typed is the name of the shell, in upper or lower case, with white space around it; it is all that is printed, and the exit code is 0. Otherwise
an error which repeats what the user typed is printed to standard error, and the exit code is 1. -/
theorem C95_shell {X : Setting} {script : Shell → Str} {fs : FileSystem} {fuel : Nat} (typed : Str) :
    (∃ s : Shell, X.T.lowercase (trim X.T typed) = s.name.toList.map Char.toLower ∧
      mainRun X script fs fuel (.completion typed) = ([.stdout (script s)], .code 0)) ∨
    ((∀ s : Shell, X.T.lowercase (trim X.T typed) ≠ s.name.toList.map Char.toLower) ∧
      mainRun X script fs fuel (.completion typed) = ([.line ("Unknown shell ".toList ++ X.style.code typed ++
        ". Must be one of Bash, Fish, Zsh, PowerShell, or Elvish.".toList)], .code 1)) := by
  simp only [mainRun, entryRun, completionRun, shellNamed]
  by_cases h1 : X.T.lowercase (trim X.T typed) = "bash".toList
  · rw [if_pos h1]; exact .inl ⟨.bash, by rw [lowerName, h1], rfl⟩
  rw [if_neg h1]
  by_cases h2 : X.T.lowercase (trim X.T typed) = "fish".toList
  · rw [if_pos h2]; exact .inl ⟨.fish, by rw [lowerName, h2], rfl⟩
  rw [if_neg h2]
  by_cases h3 : X.T.lowercase (trim X.T typed) = "zsh".toList
  · rw [if_pos h3]; exact .inl ⟨.zsh, by rw [lowerName, h3], rfl⟩
  rw [if_neg h3]
  by_cases h4 : X.T.lowercase (trim X.T typed) = "powershell".toList
  · rw [if_pos h4]; exact .inl ⟨.powerShell, by rw [lowerName, h4], rfl⟩
  rw [if_neg h4]
  by_cases h5 : X.T.lowercase (trim X.T typed) = "elvish".toList
  · rw [if_pos h5]; exact .inl ⟨.elvish, by rw [lowerName, h5], rfl⟩
  rw [if_neg h5]
  refine .inr ⟨fun s => ?_, rfl⟩
  rw [lowerName]
  cases s <;> assumption

/-- **C95 (names of shells).** In particular, every way of writing the name in upper and lower case, with any white space around it, is understood. -/
theorem C95_shell_names {X : Setting} (hT : X.T.Ascii) {script : Shell → Str} {fs : FileSystem} {fuel : Nat} (s : Shell) {typed before after : Str}
    (hn : typed.map Char.toLower = s.name.toList.map Char.toLower) (hasc : ∀ c ∈ typed, c.toNat < 128) (hb : ∀ c ∈ before, X.T.isWhitespace c = true)
    (ha : ∀ c ∈ after, X.T.isWhitespace c = true) :
    mainRun X script fs fuel (.completion (before ++ typed ++ after)) = ([.stdout (script s)], .code 0) := by
  have hletters : ∀ c ∈ typed, X.T.isWhitespace c = false := by
    intro c hc
    have h1 : c.toLower ∈ s.name.toList.map Char.toLower := by rw [← hn]; exact List.mem_map.mpr ⟨c, hc, rfl⟩
    have h2 : ∀ d ∈ s.name.toList.map Char.toLower, d.isLower = true := by cases s <;> decide
    have h3 := h2 _ h1
    rw [hT.isWhitespace c (hasc c hc)]
    have key : ∀ n : Fin 128, (Char.ofNat n).toLower.isLower = true → (Char.ofNat n == ' ' || (9 ≤ (Char.ofNat n).toNat && (Char.ofNat n).toNat ≤ 13)) = false := by
      decide +kernel
    have := key ⟨c.toNat, hasc c hc⟩
    simp only [Char.ofNat_toNat] at this
    exact this h3
  have htrim : trim X.T (before ++ typed ++ after) = typed := by
    apply Trimmed.eq
    refine ⟨⟨before, after, rfl, hb, ha⟩, ?_, ?_⟩
    · intro c hc
      exact hletters c (List.mem_of_mem_head? hc)
    · intro c hc
      exact hletters c (List.mem_of_getLast? hc)
  have hinj : ∀ s s' : Shell, s.name.toList.map Char.toLower = s'.name.toList.map Char.toLower → s = s' := by
    intro s s' h
    rw [lowerName, lowerName] at h
    revert h
    cases s <;> cases s' <;> first | (intro _; rfl) | decide
  rcases C95_shell (X := X) (script := script) (fs := fs) (fuel := fuel) (before ++ typed ++ after) with ⟨s', h1, h2⟩ | ⟨h1, -⟩
  · rw [htrim, hT.lowercase typed hasc, hn] at h1
    rw [h2, hinj _ _ h1]
  · exact absurd (by rw [htrim, hT.lowercase typed hasc, hn]) (h1 s)

/-! ### Examples -/

/-- No colours; the disk is full when the TypeScript file is written, if `full`. -/
def exampleSetting (full : Bool) : Setting where
  T := asciiTable
  F := keepLines
  style := .plain
  wording := ⟨fun _ _ => [], fun _ => none, fun _ => none, fun _ _ => [], [], fun _ => []⟩
  typeText k := joinWith ['.'] (k.1 ++ [k.2])
  rustText _ := "rust".toList
  tsText _ := "ts".toList
  os e := if full && e == .write (FPath.ofStr "a.ts".toList) "ts".toList then some "The disk is full.".toList else none

/-- A run which succeeds. -/
example : mainRun (exampleSetting false) (fun _ => []) untidyFs 4 (.generate (FPath.ofStr "p/a.t".toList) true (some (FPath.ofStr "out/a.rs".toList)) none) =
    ([.line "Loading schemas\u2026".toList, .line "2 schemas loaded.".toList, .line "Validating schemas\u2026".toList, .line "Listing schemas\u2026".toList,
      .stdout "p/a.t\n".toList, .stdout "p/sub/b.t\n".toList, .line "Generating Rust\u2026".toList, .effect (.createDir (FPath.ofStr "out".toList)),
      .line "Writing `out/a.rs`\u2026".toList, .effect (.write (FPath.ofStr "out/a.rs".toList) "rust".toList), .line "Done.".toList], .code 0) := by
  decide +kernel

/-- A run which fails. -/
example : mainRun (exampleSetting true) (fun _ => []) untidyFs 4 (.generate (FPath.ofStr "p/a.t".toList) false none (some (FPath.ofStr "a.ts".toList))) =
    ([.line "Loading schemas\u2026".toList, .line "2 schemas loaded.".toList, .line "Validating schemas\u2026".toList, .line "Generating TypeScript\u2026".toList,
      .effect (.createDir (FPath.ofStr [])), .line "Writing `a.ts`\u2026".toList,
      .line "[Error] Unable to write `a.ts`.\n\nReason: The disk is full.".toList], .code 1) := by
  decide +kernel

/-- `format --check` on files which are not formatted, and `format`. -/
example : mainRun (exampleSetting false) (fun _ => []) untidyFs 4 (.format (FPath.ofStr "p/a.t".toList) true) =
      ([.line "Loading schemas\u2026".toList, .line "2 schemas loaded.".toList, .line "Checking schemas\u2026".toList, .line "  `p/a.t`".toList, .line "  `p/sub/b.t`".toList,
        .line "[Error] Formatting mismatch. Please run `typical format p/a.t`.".toList], .code 1) ∧
    mainRun (exampleSetting false) (fun _ => []) untidyFs 4 (.format (FPath.ofStr "p/a.t".toList) false) =
      ([.line "Loading schemas\u2026".toList, .line "2 schemas loaded.".toList, .line "Formatting schemas\u2026".toList, .line "  `p/a.t`".toList,
        .effect (.write (FPath.ofStr "p/a.t".toList) "import 'sub/b.t'\n\nstruct Foo {\n    x: b.Bar = 0\n}\n".toList), .line "  `p/sub/b.t`".toList, .line "Done.".toList], .code 0) := by
  decide +kernel

/-- The hypotheses of `C95_generate` are met by these files. -/
example : ∃ S dir, loadSchemas (exampleSetting false).T untidyFs 4 (FPath.ofStr "p/a.t".toList) = .ok S ∧
    Schemas.WellFormed (S.map (fun e => (e.1, e.2.schema))) ∧ (FPath.ofStr "p/a.t".toList).parent = some dir := by
  have h : (match loadSchemas asciiTable untidyFs 4 (FPath.ofStr "p/a.t".toList) with
    | .ok S => (match validate (S.map (fun e => (e.1, e.2.schema))) with | .ok [] => true | _ => false)
    | _ => false) = true := by decide +kernel
  cases hl : loadSchemas asciiTable untidyFs 4 (FPath.ofStr "p/a.t".toList) with
  | ok S =>
    rw [hl] at h
    dsimp only at h
    refine ⟨S, FPath.ofStr "p".toList, hl, (C28_accepts_exactly_well_formed _ (C40_establishes_loaded hl)).mp ?_, by decide +kernel⟩
    revert h
    cases validate (S.map (fun e => (e.1, e.2.schema))) with
    | error _ => intro h; cases h
    | ok es =>
      cases es with
      | nil => intro _; rfl
      | cons _ _ => intro h; cases h
  | _ => rw [hl] at h; cases h

/-- What the user typed for a shell. -/
example : mainRun (exampleSetting false) (fun _ => "script".toList) untidyFs 4 (.completion " pOWERSHELL".toList) = ([.stdout "script".toList], .code 0) ∧
    mainRun (exampleSetting false) (fun _ => "script".toList) untidyFs 4 (.completion "sh".toList) =
      ([.line "Unknown shell `sh`. Must be one of Bash, Fish, Zsh, PowerShell, or Elvish.".toList], .code 1) := by
  decide +kernel

end Typical
