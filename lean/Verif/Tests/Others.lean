import Verif.Model.Cli
import Verif.Model.Client
import Verif.Model.Timer
import Verif.Props.Cli
import Verif.Spec.Sample

/-!
# The unit tests of the CLI library, the timer and the client, on the model

The tests in /repo/cli, /repo/lib/timer and /repo/client, one by one, as statements about the model. They say nothing
about all inputs; they check the transcription.
-/

namespace Hop.Tests.Others

open Spec

private abbrev foo : Bytes := ascii "foo"
private abbrev bar : Bytes := ascii "bar"
private abbrev std : Cli.Std := plainStd

/-! ## cli/lib/src/parse.rs 221-307 -/

/-- `test_args`, 225-231. -/
example : Cli.inputArgs std ["true".toList] .echo .boolean = .ok [[1]] := by decide +kernel

/-- `test_command`, 233-244. -/
example : Cli.command "echo".toList = some (.echo, none) ∧ Cli.command "increment:float".toList = some (.increment, some .float) ∧
    Cli.command "increment:int".toList = some (.increment, some .integer) := by decide +kernel

/-- What the tests look at in the request a line of text is turned into. -/
private structure Seen where
  command : CommandId
  type : Option KeyType
  count : Nat
  args : Option (List Bytes)
deriving DecidableEq

private def seen (m : Mode) (line : String) : Option Seen :=
  match Cli.parse m std line.toList with
  | .ok r => some ⟨r.commandId, r.keyType, r.argCount, r.argsFrom 0⟩
  | _ => none

/-- `test_command_is_int`, 246-254. -/
example (m : Mode) : seen m "is:int foo bar" = some ⟨.is, some .integer, 2, some [foo, bar]⟩ := by cases m <;> decide +kernel

/-- `test_command_invalid_key_type`, 256-260. -/
example : Cli.command "increment:floatt".toList = none ∧ Cli.command "increment:".toList = none := by decide +kernel

/-- `test_key_type`, 262-275. -/
example : Cli.keyType "boolean".toList = some .boolean ∧
    Cli.keyType "bool".toList = some .boolean ∧
    Cli.keyType "bytes".toList = some .bytes ∧
    Cli.keyType "float".toList = some .float ∧
    Cli.keyType "integer".toList = some .integer ∧
    Cli.keyType "int".toList = some .integer ∧
    Cli.keyType "list".toList = some .list ∧
    Cli.keyType "map".toList = some .map ∧
    Cli.keyType "set".toList = some .set ∧
    Cli.keyType "string".toList = some .string ∧
    Cli.keyType "str".toList = some .string := by decide +kernel

/-- `test_key_type_name`, 277-287. -/
example : Cli.typeName .boolean = "bool".toList ∧
    Cli.typeName .bytes = "bytes".toList ∧
    Cli.typeName .float = "float".toList ∧
    Cli.typeName .integer = "int".toList ∧
    Cli.typeName .list = "list".toList ∧
    Cli.typeName .map = "map".toList ∧
    Cli.typeName .set = "set".toList ∧
    Cli.typeName .string = "str".toList := by decide +kernel

/-- `test_parse`, 289-306. -/
example (m : Mode) : (seen m "echo").map (fun s => (s.command, s.args)) = some (.echo, none) ∧
    (seen m "increment:int").map (fun s => (s.command, s.type)) = some (.increment, some .integer) ∧
    seen m "increment:by:int foo 3" = some ⟨.incrementBy, some .integer, 2, some [foo, i64Bytes 3]⟩ := by cases m <;> decide +kernel


/-! ## lib/timer/src/lib.rs 268-383, but `test_now` and `test_exported_now`, which read the real clock -/

/-- Two readings of the clock, the second one later. -/
private def early : Timespec := ⟨5, 999_999_999⟩
private def late : Timespec := ⟨7, 3⟩

/-- `test_parse_timespec_corrects_negative_seconds`, 290-298. -/
example : parseTimespec ⟨-1, 5_000_000⟩ = some 5_000_000 := by decide +kernel

/-- `test_parse_timespec_corrects_overflowing_nanos`, 300-308. -/
example : parseTimespec ⟨3, Int64.maxValue⟩ = some 2_999_999_999 := by decide +kernel

/-- `test_parse_timespec_corrects_negative_nanos`, 310-318. -/
example : parseTimespec ⟨3, -1⟩ = some 3_000_000_000 := by decide +kernel

/-- `test_new_defaults`, 320-326. -/
example : Timer.new.start = none ∧ Timer.new.stop = none := by decide +kernel

/-- `test_start_cant_start_again`, 328-337. -/
example : (Timer.new.doStart early).1 = some true ∧ ((Timer.new.doStart early).2.doStart late).1 = some false ∧
    ((Timer.new.doStart early).2.doStart late).2.start = some 5_999_999_999 := by decide +kernel

/-- `test_stop_doesnt_stop_again`, 339-345. -/
example : ((Timer.new.doStart early).2.doStop late).1 = some (some 1_000_000_004) ∧ (((Timer.new.doStart early).2.doStop late).2.doStop late).1 = some none := by decide +kernel

/-- `test_reset_is_equivalent_to_new`, 347-354. -/
example : ((Timer.new.doStart early).2.doStop late).2.reset = .new := by decide +kernel

/-- `test_reset_resets_running_timer`, 356-362. -/
example : (Timer.new.doStart early).2.reset = .new := by decide +kernel

/-- `test_duration_requires_finish`, 364-372. -/
example : Timer.new.duration = some none ∧ (Timer.new.doStart early).2.duration = some none ∧ ((Timer.new.doStart early).2.doStop late).2.duration = some (some 1_000_000_004) := by decide +kernel

/-- `test_is_running`, 374-382. -/
example : Timer.new.isRunning = false ∧ (Timer.new.doStart early).2.isRunning = true ∧ ((Timer.new.doStart early).2.doStop late).2.isRunning = false := by decide +kernel


/-! ## client/src/backend/memory.rs 348-556 -/

/-- One call on the backend after another: what the last one gives. -/
private def after {α β} (p : Client.Job α) (q : Client.Job β) (db : Db) : Outcome DispatchError (Except Client.Error β) :=
  (q.run (p.run db).2).1

/-- `test_append`, 361-373. -/
example (m : Mode) : (after (Client.set (sampleEnv m) foo (.string "foo".toList)) (Client.append (sampleEnv m) foo (.string "bar".toList)) .empty) = .ok (.ok (.string "foobar".toList)) := by cases m <;> decide +kernel

/-- `test_decrement`, 375-383. -/
example (m : Mode) : ((Client.decrement (sampleEnv m) foo none).run .empty).1 = .ok (.ok (.integer (-1))) := by cases m <;> decide +kernel

/-- `test_echo`, 385-389. -/
example (m : Mode) : ((Client.echo (sampleEnv m) (ascii "test")).run .empty).1 = .ok (.ok [ascii "test"]) := by cases m <;> decide +kernel

/-- `test_is`, 391-398. -/
example (m : Mode) : (after (Client.set (sampleEnv m) foo (.boolean true)) (Client.is (sampleEnv m) .boolean [foo]) .empty) = .ok (.ok true) := by cases m <;> decide +kernel

/-- `test_is`, 391-398. -/
example (m : Mode) : (after (Client.set (sampleEnv m) foo (.boolean true)) (Client.is (sampleEnv m) .integer [foo]) .empty) = .ok (.ok false) := by cases m <;> decide +kernel

/-- `test_length_bytes`, 400-410. -/
example (m : Mode) : (after (Client.set (sampleEnv m) foo (.bytes foo)) (Client.length (sampleEnv m) foo (some .bytes)) .empty) = .ok (.ok 3) := by cases m <;> decide +kernel

/-- `test_length_list`, 412-423. -/
example (m : Mode) : (after (Client.set (sampleEnv m) foo (.list [foo, bar])) (Client.length (sampleEnv m) foo (some .list)) .empty) = .ok (.ok 2) := by cases m <;> decide +kernel

/-- `test_length_map`, 425-433. -/
example (m : Mode) : (after (Client.set (sampleEnv m) foo (.map ((BMap.insert [] foo (ascii "value")).insert bar (ascii "value")))) (Client.length (sampleEnv m) foo (some .map)) .empty) = .ok (.ok 2) := by cases m <;> decide +kernel

/-- `test_length_set`, 435-443. -/
example (m : Mode) : (after (Client.set (sampleEnv m) foo (.set ((BSet.insert [] foo).insert bar))) (Client.length (sampleEnv m) foo (some .set)) .empty) = .ok (.ok 2) := by cases m <;> decide +kernel

/-- `test_length_string`, 445-456. -/
example (m : Mode) : (after (Client.set (sampleEnv m) foo (.string "foo".toList)) (Client.length (sampleEnv m) foo (some .string)) .empty) = .ok (.ok 3) := by cases m <;> decide +kernel

/-- `test_set_bool`, 458-487. -/
example (m : Mode) : ((Client.set (sampleEnv m) foo (.boolean true)).run .empty).1 = .ok (.ok (.boolean true)) ∧ ((Client.set (sampleEnv m) foo (.boolean true)).run .empty).2.keys foo = some (.boolean true) := by cases m <;> decide +kernel

/-- `test_set_bool`, 458-487. -/
example (m : Mode) : ((Client.set (sampleEnv m) foo (.boolean false)).run .empty).1 = .ok (.ok (.boolean false)) ∧ ((Client.set (sampleEnv m) foo (.boolean false)).run .empty).2.keys foo = some (.boolean false) := by cases m <;> decide +kernel

/-- `test_set_bytes`, 489-504. -/
example (m : Mode) : ((Client.set (sampleEnv m) foo (.bytes [1, 2, 3])).run .empty).1 = .ok (.ok (.bytes [1, 2, 3])) ∧ ((Client.set (sampleEnv m) foo (.bytes [1, 2, 3])).run .empty).2.keys foo = some (.bytes [1, 2, 3]) := by cases m <;> decide +kernel

/-- `test_set_float`, 506-520: the bits of 1.23. -/
example (m : Mode) : ((Client.set (sampleEnv m) foo (.float ⟨0x3ff3ae147ae147ae⟩)).run .empty).1 = .ok (.ok (.float ⟨0x3ff3ae147ae147ae⟩)) ∧ ((Client.set (sampleEnv m) foo (.float ⟨0x3ff3ae147ae147ae⟩)).run .empty).2.keys foo = some (.float ⟨0x3ff3ae147ae147ae⟩) := by cases m <;> decide +kernel

/-- `test_set_int`, 522-538. -/
example (m : Mode) : ((Client.set (sampleEnv m) foo (.integer 123)).run .empty).1 = .ok (.ok (.integer 123)) ∧ ((Client.set (sampleEnv m) foo (.integer 123)).run .empty).2.keys foo = some (.integer 123) := by cases m <;> decide +kernel

/-- `test_set_string`, 540-555. -/
example (m : Mode) : ((Client.set (sampleEnv m) foo (.string "bar".toList)).run .empty).1 = .ok (.ok (.string "bar".toList)) ∧ ((Client.set (sampleEnv m) foo (.string "bar".toList)).run .empty).2.keys foo = some (.string "bar".toList) := by cases m <;> decide +kernel

end Hop.Tests.Others
