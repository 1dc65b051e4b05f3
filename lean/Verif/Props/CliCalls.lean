import Verif.Props.CliSession
import Verif.Props.Callers
import Verif.Props.BuildsAround

/-!
# A session of the CLI is the client calls its lines stand for, one after the other (C215)
-/

namespace Hop

open Prog Spec
open Hop.Cli (Text Std ParseError Ending)

/-- A line, with whatever white space at its end, spells a command with at most 255 arguments that asks for this. -/
def Spec.Says (std : Std) (line : Text) (m : Meaning) : Prop :=
  ∃ c t w words args ws, line = lineOf w words ++ ws ∧ (∀ ch ∈ (lineOf w words).getLast?, ¬ whiteSpace ch) ∧ (∀ ch ∈ ws, whiteSpace ch) ∧
    Head c t w ∧ (∀ x ∈ words, x ≠ [] ∧ ' ' ∉ x) ∧ Arguments std c t words args ∧ args.length ≤ 255 ∧ Spec.meaning c t args = m

/-- The client calls among what is asked for. -/
def Spec.callsIn : List Meaning → List Api
  | [] => []
  | .call a :: ms => a :: callsIn ms
  | _ :: ms => callsIn ms

/-- What is printed and how the session ends, given what the calls have come to: the texts up to the first panic; if there is none, the end of the input
ends it with the error that no command was provided. -/
def Spec.printedFor (env : Env) (std : Std) : List Meaning → List Resolved → List Text × Ending
  | [], _ => ([], .error .noCommandProvided)
  | .call a :: ms, o :: os =>
    match reply env std a o with
    | .ok (.ok s) => ((s ++ ['\n']) :: (printedFor env std ms os).1, (printedFor env std ms os).2)
    | .ok (.error e) => ([], .error e)
    | .panic => ([], .panic)
    | _ => ([], .other)
  | .call _ :: _, [] => ([], .other)
  | .message s :: ms, os => ((s.toList ++ ['\n']) :: (printedFor env std ms os).1, (printedFor env std ms os).2)
  | .blank :: ms, os => (['\n'] :: (printedFor env std ms os).1, (printedFor env std ms os).2)
  | .unsupported :: _, _ => ([], .panic)

private theorem says_process {env : Env} {std : Std} {line : Text} {m : Meaning} (h : Says std line m) :
    Cli.process env std (Cli.trimEnd line) = doing env std m := by
  obtain ⟨c, t, w, words, args, ws, rfl, h1, h2, h3, h4, h5, h6, rfl⟩ := h
  rw [trimEnd_append _ _ h1 h2]
  exact C72_line env std c t w words args h3 h4 h5 h6

/-- **C215.** A session whose lines spell commands is the client calls they stand for, one after the other, each on the database that the ones before have left:
it prints what these calls come to, ends at the first panic, or else at the end of the input, and leaves the database that the calls up to there leave. -/
theorem C215_session (env : Env) (std : Std) {lines : List Text} {ms : List Meaning} (h : All2 (Says std) lines ms) (db : Db) :
    (Cli.session env std lines db).1 = (printedFor env std ms (callAll env (callsIn ms) db).1).1 ∧
    (Cli.session env std lines db).2.1 = (printedFor env std ms (callAll env (callsIn ms) db).1).2 ∧
    (Cli.session env std lines db).2.2 = (callAll env (callsIn (ms.take ((Cli.session env std lines db).1.length + 1))) db).2 := by
  induction h generalizing db with
  | nil => exact ⟨rfl, rfl, rfl⟩
  | @cons line m lines ms h _ ih =>
    have hp := says_process (env := env) h
    unfold Cli.session
    rw [hp]
    cases m with
    | call a =>
      have hrun : (doing env std (.call a)).run db = (reply env std a ((a.start env).run db).1, ((a.start env).run db).2) := by
        rw [doing, run_andThen]; rfl
      rw [hrun]
      simp only [callsIn, callAll, printedFor]
      obtain ⟨h1, h2, h3⟩ := ih ((a.start env).run db).2
      cases reply env std a ((a.start env).run db).1 with
      | ok x =>
        cases x with
        | ok s => exact ⟨by rw [← h1], h2, h3⟩
        | error e => exact ⟨rfl, rfl, by simp [callsIn, callAll]⟩
      | panic => exact ⟨rfl, rfl, by simp [callsIn, callAll]⟩
      | err e => exact ⟨rfl, rfl, by simp [callsIn, callAll]⟩
      | stuck => exact ⟨rfl, rfl, by simp [callsIn, callAll]⟩
    | message s =>
      obtain ⟨h1, h2, h3⟩ := ih db
      exact ⟨congrArg _ h1, h2, h3⟩
    | blank =>
      obtain ⟨h1, h2, h3⟩ := ih db
      exact ⟨congrArg _ h1, h2, h3⟩
    | unsupported => exact ⟨rfl, rfl, rfl⟩

/-- **C215, spelling.** Two sessions whose lines ask for the same, one by one, print the same, end in the same way and leave the same database, however
their lines are spelled: the type named, what follows the arguments that are used, and white space at the end make no difference. -/
theorem C215_same (env : Env) (std : Std) {lines lines' : List Text} {ms : List Meaning} (h : All2 (Says std) lines ms) (h' : All2 (Says std) lines' ms)
    (db : Db) : Cli.session env std lines db = Cli.session env std lines' db := by
  obtain ⟨h1, h2, h3⟩ := C215_session env std h db
  obtain ⟨h4, h5, h6⟩ := C215_session env std h' db
  have e1 := h1.trans h4.symm
  refine Prod.ext e1 (Prod.ext (h2.trans h5.symm) ?_)
  rw [h3, h6, e1]

/-- **C215, undisturbed.** If no call comes to a panic that way and no line asks for what the CLI does not support, then one text is printed for each line
and the session leaves what the calls leave. -/
theorem C215_all (env : Env) (std : Std) {lines : List Text} {ms : List Meaning} (h : All2 (Says std) lines ms) (db : Db)
    (hp : (Cli.session env std lines db).2.1 = .error .noCommandProvided) :
    (Cli.session env std lines db).1.length = lines.length ∧ (Cli.session env std lines db).2.2 = (callAll env (callsIn ms) db).2 := by
  have hlen : ∀ {lines : List Text} {ms : List Meaning}, All2 (Says std) lines ms → lines.length = ms.length := by
    intro lines ms h
    induction h with
    | nil => rfl
    | cons _ _ ih => simp [ih]
  have key : ∀ (ms : List Meaning) (db : Db), (printedFor env std ms (callAll env (callsIn ms) db).1).2 = .error .noCommandProvided →
      (printedFor env std ms (callAll env (callsIn ms) db).1).1.length = ms.length := by
    intro ms
    induction ms with
    | nil => intro _ _; rfl
    | cons m ms ih =>
      intro db hp
      cases m with
      | call a =>
        simp only [callsIn, callAll, printedFor] at hp ⊢
        have hne : ∀ e, reply env std a ((a.start env).run db).1 ≠ .ok (.error e) := by
          intro e he
          generalize ((a.start env).run db).1 = o at he
          rcases o with (_ | g) | _ | _ | _ <;> simp only [reply] at he
          · cases he
          · split at he <;> cases he
          all_goals cases he
        cases hr : reply env std a ((a.start env).run db).1 with
        | ok x =>
          rw [hr] at hp
          cases x with
          | ok s => simp only [List.length_cons]; rw [ih _ hp]
          | error e => exact absurd hr (hne e)
        | _ => rw [hr] at hp; cases hp
      | message s => simp only [callsIn, printedFor, List.length_cons] at hp ⊢; rw [ih _ hp]
      | blank => simp only [callsIn, printedFor, List.length_cons] at hp ⊢; rw [ih _ hp]
      | unsupported => cases hp
  obtain ⟨h1, h2, h3⟩ := C215_session env std h db
  have hl : (Cli.session env std lines db).1.length = ms.length := by rw [h1]; exact key ms db (h2.symm.trans hp)
  refine ⟨hl.trans (hlen h).symm, ?_⟩
  rw [h3, hl, List.take_of_length_le (by omega)]

/-! ## Concrete cases -/

private theorem says_increment (std : Std) : Says std "increment a\n".toList (.call (.increment [97] none)) :=
  ⟨.increment, .bytes, "increment".toList, ["a".toList], [[97]], "\n".toList, by decide, by unfold whiteSpace; decide, by unfold whiteSpace; decide,
    .inl ⟨rfl, rfl⟩, by decide, .inr ⟨["a".toList], [], [], rfl, rfl, .nil, fun _ => rfl, by decide⟩, by decide, rfl⟩

private theorem says_increment_float (std : Std) : Says std "increment:float a".toList (.call (.increment [97] none)) :=
  ⟨.increment, .float, "increment:float".toList, ["a".toList], [[97]], [], by decide, by unfold whiteSpace; decide, by simp,
    .inr ⟨"float", by decide, by decide⟩, by decide, .inr ⟨["a".toList], [], [], rfl, rfl, .nil, fun _ => rfl, by decide⟩, by decide, rfl⟩

private theorem says_rename (std : Std) : Says std "rename a b\n".toList (.call (.rename [97] [98])) :=
  ⟨.rename, .bytes, "rename".toList, ["a".toList, "b".toList], [[97], [98]], "\n".toList, by decide, by unfold whiteSpace; decide, by unfold whiteSpace; decide,
    .inl ⟨rfl, rfl⟩, by decide, .inr ⟨["a".toList, "b".toList], [], [], rfl, rfl, .nil, fun _ => rfl, by decide⟩, by decide, rfl⟩

private theorem says_set (std : Std) : Says std "set a b\n".toList .unsupported :=
  ⟨.set, .bytes, "set".toList, ["a".toList, "b".toList], [[97], [98]], "\n".toList, by decide, by unfold whiteSpace; decide, by unfold whiteSpace; decide,
    .inl ⟨rfl, rfl⟩, by decide, .inr ⟨["a".toList], ["b".toList], [[98]], rfl, rfl, .cons rfl .nil, nofun, by decide⟩, by decide, rfl⟩

/-- Two calls, then a line that is not supported: the last increment is not made. -/
example (std : Std) (m : Mode) (db : Db) :
    (Cli.session (sampleEnv m) std ["increment a\n".toList, "rename a b\n".toList, "set a b\n".toList, "increment a\n".toList] db).2.2 =
      (callAll (sampleEnv m) (callsIn ([.call (.increment [97] none), .call (.rename [97] [98]), .unsupported, .call (.increment [97] none)].take
        ((Cli.session (sampleEnv m) std ["increment a\n".toList, "rename a b\n".toList, "set a b\n".toList, "increment a\n".toList] db).1.length + 1))) db).2 :=
  (C215_session (sampleEnv m) std (.cons (says_increment std) (.cons (says_rename std) (.cons (says_set std) (.cons (says_increment std) .nil)))) db).2.2

example : Cli.session (sampleEnv .debug) plainStd ["increment a\n".toList, "rename a b\n".toList, "set a b\n".toList, "increment a\n".toList] Db.empty =
    (["1\n".toList, "b\n".toList], .panic, (callAll (sampleEnv .debug) [.increment [97] none, .rename [97] [98]] Db.empty).2) := by
  have h := C215_session (sampleEnv .debug) plainStd (.cons (says_increment plainStd) (.cons (says_rename plainStd) (.cons (says_set plainStd)
    (.cons (says_increment plainStd) .nil)))) Db.empty
  have h1 : (Cli.session (sampleEnv .debug) plainStd ["increment a\n".toList, "rename a b\n".toList, "set a b\n".toList, "increment a\n".toList] Db.empty).1 =
      ["1\n".toList, "b\n".toList] := by decide +kernel
  have h2 : (Cli.session (sampleEnv .debug) plainStd ["increment a\n".toList, "rename a b\n".toList, "set a b\n".toList, "increment a\n".toList] Db.empty).2.1 =
      .panic := by decide +kernel
  have h3 := h.2.2
  rw [h1] at h3
  exact Prod.ext h1 (Prod.ext h2 h3)

example (std : Std) (m : Mode) (db : Db) : Cli.session (sampleEnv m) std ["increment a\n".toList, "rename a b\n".toList] db =
    Cli.session (sampleEnv m) std ["increment:float a".toList, "rename a b\n".toList] db :=
  C215_same (sampleEnv m) std (.cons (says_increment std) (.cons (says_rename std) .nil)) (.cons (says_increment_float std) (.cons (says_rename std) .nil)) db

example : (Cli.session (sampleEnv .debug) plainStd ["increment a\n".toList, "rename a b\n".toList] Db.empty).2.2 =
    (callAll (sampleEnv .debug) [.increment [97] none, .rename [97] [98]] Db.empty).2 :=
  (C215_all (sampleEnv .debug) plainStd (.cons (says_increment plainStd) (.cons (says_rename plainStd) .nil)) Db.empty (by decide +kernel)).2

end Hop
