import Verif.Model.RequestParser
import Verif.Model.ResponseParser
import Verif.Model.State
import Verif.Spec.Sample

/-!
# The unit tests of the engine, on the model

The tests in /repo/engine, one by one, as statements about the model. They say nothing about all inputs; they check the transcription.
-/

namespace Hop.Tests.Engine

open Spec

/-- As `sampleEnv`, but sets and maps are listed as they are kept. -/
private def plainEnv (m : Mode) : Env :=
  { sampleEnv m with mapOrd := id, mapOrd_perm := fun _ => .refl _, setOrd := id, setOrd_perm := fun _ => .refl _ }

private abbrev foo : Bytes := ascii "foo"
private abbrev bar : Bytes := ascii "bar"
private abbrev hop : Bytes := ascii "hop"
private abbrev db : Bytes := ascii "db"

/-! ## engine/src/command/command_id.rs 190-289 -/

/-- `test_from_str`, 218-248. -/
example : CommandId.ofName "append" = some .append ∧
    CommandId.ofName "decrement:by" = some .decrementBy ∧
    CommandId.ofName "decrement" = some .decrement ∧
    CommandId.ofName "delete" = some .delete ∧
    CommandId.ofName "echo" = some .echo ∧
    CommandId.ofName "exists" = some .exists ∧
    CommandId.ofName "get" = some .get ∧
    CommandId.ofName "increment:by" = some .incrementBy ∧
    CommandId.ofName "increment" = some .increment ∧
    CommandId.ofName "is" = some .is ∧
    CommandId.ofName "keys" = some .keys ∧
    CommandId.ofName "length" = some .length ∧
    CommandId.ofName "rename" = some .rename ∧
    CommandId.ofName "set" = some .set ∧
    CommandId.ofName "stats" = some .stats ∧
    CommandId.ofName "type" = some .type := by decide +kernel

/-- `test_try_from_u8`, 250-268. -/
example : CommandId.ofByte 20 = some .append ∧
    CommandId.ofByte 3 = some .decrementBy ∧
    CommandId.ofByte 1 = some .decrement ∧
    CommandId.ofByte 12 = some .delete ∧
    CommandId.ofByte 100 = some .echo ∧
    CommandId.ofByte 13 = some .exists ∧
    CommandId.ofByte 11 = some .get ∧
    CommandId.ofByte 2 = some .incrementBy ∧
    CommandId.ofByte 0 = some .increment ∧
    CommandId.ofByte 14 = some .is ∧
    CommandId.ofByte 22 = some .keys ∧
    CommandId.ofByte 21 = some .length ∧
    CommandId.ofByte 15 = some .rename ∧
    CommandId.ofByte 10 = some .set ∧
    CommandId.ofByte 101 = some .stats ∧
    CommandId.ofByte 16 = some .type := by decide +kernel

/-- `test_name`, 270-288. -/
example : CommandId.name .append = "append" ∧
    CommandId.name .decrementBy = "decrement:by" ∧
    CommandId.name .decrement = "decrement" ∧
    CommandId.name .delete = "delete" ∧
    CommandId.name .echo = "echo" ∧
    CommandId.name .exists = "exists" ∧
    CommandId.name .get = "get" ∧
    CommandId.name .incrementBy = "increment:by" ∧
    CommandId.name .increment = "increment" ∧
    CommandId.name .is = "is" ∧
    CommandId.name .keys = "keys" ∧
    CommandId.name .length = "length" ∧
    CommandId.name .rename = "rename" ∧
    CommandId.name .set = "set" ∧
    CommandId.name .stats = "stats" ∧
    CommandId.name .type = "type" := by decide +kernel


/-! ## engine/src/command/error.rs 57-95 and engine/src/command/request/context.rs 264-271 -/

/-- `test_error_try_from_u8`, 78-94. -/
example : ∀ e ∈ [DispatchError.argumentRetrieval, .keyNonexistent, .keyTypeDifferent, .keyTypeInvalid, .keyTypeRequired, .keyTypeUnexpected,
    .keyUnspecified, .preconditionFailed], DispatchError.ofByte e.toByte = some e := by decide +kernel

/-- `test_parse_error_try_from_u8`, 264-271. -/
example : ReqParseError.ofByte 0 = some .commandIdInvalid ∧ ReqParseError.ofByte 1 = some .keyTypeInvalid := by decide +kernel


/-! ## engine/src/command/request/builder.rs 287-435 -/

/-- `test_cmd_id`, 297-310. -/
example : (Builder.new .stats).intoRequest = { buf := [CommandId.stats.toByte], commandId := .stats, keyType := none, positions := [] } := by decide +kernel

/-- `test_key_type`, 312-331. -/
example : (Builder.newWithKeyType .decrement (some .integer)).intoRequest =
    { buf := [0b1000_0000 ||| CommandId.decrement.toByte, KeyType.integer.toByte, 0], commandId := .decrement, keyType := some .integer, positions := [] } := by decide +kernel

/-- `test_arg_bytes`, 333-366. -/
example (m : Mode) : (Builder.newWithKeyType .append (some .list)).bytes m foo = 
    (.ok (), { argumentCount := 1, buf := [0b1000_0000 ||| CommandId.append.toByte, KeyType.list.toByte, 1, 0, 0, 0, 3] ++ foo,
               commandId := .append, keyType := some .list, positions := [9] }) := by cases m <;> decide +kernel

/-- `test_arg_value`, 368-416. -/
example (m : Mode) : let b := ((Builder.newWithKeyType .set (some .string)).bytes m foo).2
    (b.value (sampleEnv m) (.integer 123)).1 = .ok () ∧
    (b.value (sampleEnv m) (.integer 123)).2.intoRequest =
      { buf := [0b1000_0000 ||| CommandId.set.toByte, KeyType.string.toByte, 2, 0, 0, 0, 3] ++ foo ++ [0, 0, 0, 8, 0, 0, 0, 0, 0, 0, 0, 123],
        commandId := .set, keyType := some .string, positions := [9, 21] } := by cases m <;> decide +kernel

/-- `test_positions`, 418-434. -/
example (m : Mode) : ((Builder.new .decrement).bytes m foo).2.buf = [CommandId.decrement.toByte, 1, 0, 0, 0, 3] ++ foo ∧
    ((Builder.new .decrement).bytes m foo).2.positions = [8] ∧ ((Builder.newWithKeyType .get (some .boolean)).bytes m foo).2.positions = [9] := by cases m <;> decide +kernel


/-! ## engine/src/command/request/context.rs 229-262 -/

/-- `test_increment_foo`, 229-262. -/
example : ∃ r, (ReqParser.feed .new ([0, 1, 0, 0, 0, 3] ++ foo)).1 = .request r ∧ r.commandId = .increment := ⟨_, rfl, rfl⟩


/-! ## engine/src/command/request/mod.rs 228-349 -/

/-- `test_request_into_bytes_simple`, 237-260. -/
example : (Builder.new .stats).intoRequest.buf = [0b0110_0101] ∧
    (Builder.newWithKeyType .increment (some .float)).intoRequest.buf = [0b1000_0000, KeyType.float.toByte, 0] := by decide +kernel

/-- `test_args`, 262-271. -/
example : (call .decrement none [foo]).argsFrom 0 = some [foo] := by decide +kernel

/-- `test_args_many`, 273-285. -/
example : (call .echo none [foo, bar, ascii "baz"]).argsFrom 0 = some [foo, bar, ascii "baz"] := by decide +kernel

/-- `test_request_into_bytes_echo`, 287-321. -/
example : (call .echo none [foo, bar]).buf = [CommandId.echo.toByte, 2, 0, 0, 0, 3] ++ foo ++ [0, 0, 0, 3] ++ bar := by decide +kernel

/-- `test_request_into_bytes_increment`, 323-348. -/
example : (call .increment (some .integer) [ascii "key"]).buf =
    [0b1000_0000 ||| CommandId.increment.toByte, KeyType.integer.toByte, 1, 0, 0, 0, 3] ++ ascii "key" := by decide +kernel


/-! ## engine/src/command/response/mod.rs 306-770 -/

/-- `test_bool`, 328-338. -/
example (m : Mode) : (Response.value (.boolean false)).asBytes (sampleEnv m) = some ([0, 0, 0, 2, ResponseType.boolean.toByte, 0]) := by cases m <;> decide +kernel

/-- `test_bool`, 328-338. -/
example (m : Mode) : (Response.value (.boolean true)).asBytes (sampleEnv m) = some ([0, 0, 0, 2, ResponseType.boolean.toByte, 1]) := by cases m <;> decide +kernel

/-- `test_bytes`, 340-362. -/
example (m : Mode) : (Response.value (.bytes (ascii "hopdb"))).asBytes (sampleEnv m) = some ([0, 0, 0, 10, ResponseType.bytes.toByte, 0, 0, 0, 5] ++ ascii "hopdb") := by cases m <;> decide +kernel

/-- `test_bytes_empty`, 364-381. -/
example (m : Mode) : (Response.value (.bytes [])).asBytes (sampleEnv m) = some ([0, 0, 0, 5, ResponseType.bytes.toByte, 0, 0, 0, 0]) := by cases m <;> decide +kernel

/-- `test_float`, 383-403: the bits of 7.4. -/
example (m : Mode) : (Response.value (.float ⟨0x401d99999999999a⟩)).asBytes (sampleEnv m) = some ([0, 0, 0, 9, ResponseType.float.toByte, 64, 29, 153, 153, 153, 153, 153, 154]) := by cases m <;> decide +kernel

/-- `test_int`, 405-461. -/
example (m : Mode) : (Response.value (.integer 7)).asBytes (sampleEnv m) = some ([0, 0, 0, 9, ResponseType.integer.toByte, 0, 0, 0, 0, 0, 0, 0, 7]) := by cases m <;> decide +kernel

/-- `test_int`, 405-461. -/
example (m : Mode) : (Response.value (.integer (-7))).asBytes (sampleEnv m) = some ([0, 0, 0, 9, ResponseType.integer.toByte, 255, 255, 255, 255, 255, 255, 255, 249]) := by cases m <;> decide +kernel

/-- `test_int`, 405-461. -/
example (m : Mode) : (Response.value (.integer 68125)).asBytes (sampleEnv m) = some ([0, 0, 0, 9, ResponseType.integer.toByte, 0, 0, 0, 0, 0, 1, 10, 29]) := by cases m <;> decide +kernel

/-- `test_list`, 463-499. -/
example (m : Mode) : (Response.value (.list [hop, db])).asBytes (sampleEnv m) = some ([0, 0, 0, 16, ResponseType.list.toByte, 0, 2, 0, 0, 0, 3] ++ hop ++ [0, 0, 0, 2] ++ db) := by cases m <;> decide +kernel

/-- `test_list_empty`, 501-518. -/
example (m : Mode) : (Response.value (.list [])).asBytes (sampleEnv m) = some ([0, 0, 0, 3, ResponseType.list.toByte, 0, 0]) := by cases m <;> decide +kernel

/-- `test_map`, 520-604: one of the two, depending on the order of iteration. -/
example (m : Mode) : (Response.value (.map ((BMap.insert [] (ascii "f") foo).insert (ascii "123") []))).asBytes (sampleEnv m) =
      some ([0, 0, 0, 20, ResponseType.map.toByte, 0, 2, 3] ++ ascii "123" ++ [0, 0, 0, 0, 1] ++ ascii "f" ++ [0, 0, 0, 3] ++ foo) ∧
    (Response.value (.map ((BMap.insert [] (ascii "f") foo).insert (ascii "123") []))).asBytes (plainEnv m) =
      some ([0, 0, 0, 20, ResponseType.map.toByte, 0, 2, 1] ++ ascii "f" ++ [0, 0, 0, 3] ++ foo ++ [3] ++ ascii "123" ++ [0, 0, 0, 0]) := by cases m <;> decide +kernel

/-- `test_map_empty`, 606-612. -/
example (m : Mode) : (Response.value (.map [])).asBytes (sampleEnv m) = some ([0, 0, 0, 3, ResponseType.map.toByte, 0, 0]) := by cases m <;> decide +kernel

/-- `test_set`, 614-674: one of the two, depending on the order of iteration. -/
example (m : Mode) : (Response.value (.set ((BSet.insert [] hop).insert db))).asBytes (plainEnv m) = some ([0, 0, 0, 12, ResponseType.set.toByte, 0, 2, 0, 3] ++ hop ++ [0, 2] ++ db) ∧
    (Response.value (.set ((BSet.insert [] hop).insert db))).asBytes (sampleEnv m) = some ([0, 0, 0, 12, ResponseType.set.toByte, 0, 2, 0, 2] ++ db ++ [0, 3] ++ hop) := by cases m <;> decide +kernel

/-- `test_set_empty`, 676-682. -/
example (m : Mode) : (Response.value (.set [])).asBytes (sampleEnv m) = some ([0, 0, 0, 3, ResponseType.set.toByte, 0, 0]) := by cases m <;> decide +kernel

/-- `test_str`, 684-713. -/
example (m : Mode) : (Response.value (.string "foo bar baz".toList)).asBytes (sampleEnv m) = some ([0, 0, 0, 16, ResponseType.string.toByte, 0, 0, 0, 11] ++ ascii "foo bar baz") := by cases m <;> decide +kernel

/-- `test_str_empty`, 715-721. -/
example (m : Mode) : (Response.value (.string [])).asBytes (sampleEnv m) = some ([0, 0, 0, 5, ResponseType.string.toByte, 0, 0, 0, 0]) := by cases m <;> decide +kernel

/-- `test_response_as_bytes`, 723-744. -/
example (m : Mode) : (Response.value (.integer 3)).asBytes (sampleEnv m) = some ([0, 0, 0, 9, ResponseType.integer.toByte, 0, 0, 0, 0, 0, 0, 0, 3]) := by cases m <;> decide +kernel

/-- `test_response_into_bytes`, 746-769. -/
example (m : Mode) : Response.copyTo (sampleEnv m) [] (.value (.integer 3)) = some [0, 0, 0, 9, ResponseType.integer.toByte, 0, 0, 0, 0, 0, 0, 0, 3] := by cases m <;> decide +kernel


/-! ## engine/src/command/response/context.rs 536-813 -/

/-- `test_resets_automatically`, 551-559. -/
example (m : Mode) : (RespParser.feed m .new [0, 0, 0, 2, ResponseType.boolean.toByte, 1]).2 = .new := by cases m <;> decide +kernel

/-- Feeding a decoder one buffer after another, as the tests do: what it says each time. -/
private def feeds (m : Mode) : RespParser.Ctx → List Bytes → List RespParser.Fed
  | _, [] => []
  | c, b :: bs => (RespParser.feed m c b).1 :: feeds m (RespParser.feed m c b).2 bs

/-- `test_boolean`, 561-575. -/
example (m : Mode) : feeds m .new [[0, 0, 0, 2, ResponseType.boolean.toByte], [0, 0, 0, 2, ResponseType.boolean.toByte, 1]] =
    [.readBytes 1, .concluded (.value (.boolean true))] := by cases m <;> decide +kernel

/-- `test_bytes`, 577-589. -/
example (m : Mode) : feeds m .new [[0, 0, 0, 5, 1, 0, 0, 0, 3], [0, 0, 0, 5, 1, 0, 0, 0, 3, 2, 3], [0, 0, 0, 5, 1, 0, 0, 0, 3, 2, 3, 0]] =
    [.readBytes 3, .readBytes 1, .concluded (.value (.bytes [2, 3, 0]))] := by cases m <;> decide +kernel

/-- `test_req_dispatch_error_unfinished`, 591-596: the length is 0, and the type byte is read as 2. -/
example (m : Mode) : (RespParser.feed m .new ([0, 0, 0, 0, 2, ResponseType.dispatchError.toByte])).1 = .readBytes 1 := by cases m <;> decide +kernel

/-- `test_req_dispatch_error_argument_retrieval`, 598-615. -/
example (m : Mode) : (RespParser.feed m .new ([0, 0, 0, 2, ResponseType.dispatchError.toByte, DispatchError.argumentRetrieval.toByte])).1 = .concluded (.dispatchError .argumentRetrieval) := by cases m <;> decide +kernel

/-- `test_req_dispatch_error_key_retrieval`, 617-634. -/
example (m : Mode) : (RespParser.feed m .new ([0, 0, 0, 2, ResponseType.dispatchError.toByte, DispatchError.keyUnspecified.toByte])).1 = .concluded (.dispatchError .keyUnspecified) := by cases m <;> decide +kernel

/-- `test_req_dispatch_error_key_type_different`, 636-653. -/
example (m : Mode) : (RespParser.feed m .new ([0, 0, 0, 2, ResponseType.dispatchError.toByte, DispatchError.keyTypeDifferent.toByte])).1 = .concluded (.dispatchError .keyTypeDifferent) := by cases m <;> decide +kernel

/-- `test_remaining_bytes`, 655-659. -/
example (m : Mode) : RespParser.remainingBytes m 5 5 4 = .readBytes 4 ∧ RespParser.remainingBytes m 5 7 4 = .readBytes 2 := by cases m <;> decide +kernel

/-- `test_list`, 661-695. -/
example (m : Mode) : (RespParser.feed m .new ([0, 0, 0, 17, ResponseType.list.toByte, 0, 2, 0, 0, 0, 3] ++ foo ++ [0, 0, 0, 3] ++ bar)).1 = .concluded (.value (.list [foo, bar])) := by cases m <;> decide +kernel

/-- `test_map`, 697-730. -/
example (m : Mode) : (RespParser.feed m .new ([0, 0, 0, 15, ResponseType.map.toByte, 0, 1, 3] ++ foo ++ [0, 0, 0, 4] ++ ascii "bar!")).1 = .concluded (.value (.map [(foo, ascii "bar!")])) := by cases m <;> decide +kernel

/-- `test_map_no_items`, 732-739. -/
example (m : Mode) : (RespParser.feed m .new ([0, 0, 0, 3, ResponseType.map.toByte, 0, 0])).1 = .concluded (.value (.map [])) := by cases m <;> decide +kernel

/-- `test_set`, 741-764. -/
example (m : Mode) : (RespParser.feed m .new ([0, 0, 0, 8, ResponseType.set.toByte, 0, 2, 0, 2, 5, 3, 0])).1 = .readBytes 1 := by cases m <;> decide +kernel

/-- `test_string`, 766-786. -/
example (m : Mode) : feeds m .new [[0, 0, 0, 8, ResponseType.string.toByte, 0, 0, 0, 3, 97], [0, 0, 0, 8, ResponseType.string.toByte, 0, 0, 0, 3, 97, 98],
      [0, 0, 0, 8, ResponseType.string.toByte, 0, 0, 0, 3, 97, 98, 99]] =
    [.readBytes 2, .readBytes 1, .concluded (.value (.string "abc".toList))] := by cases m <;> decide +kernel

/-- `test_completeness`, 788-812. -/
example (m : Mode) : feeds m .new ([0, 1, 2, 3, 5, 8, 9, 10, 11, 12].map fun n => ([0, 0, 0, 8, ResponseType.string.toByte, 0, 0, 0, 3, 97, 98, 99] : Bytes).take n) =
    [.readBytes 4, .readBytes 3, .readBytes 2, .readBytes 1, .readBytes 7, .readBytes 4, .readBytes 3, .readBytes 2, .readBytes 1,
      .concluded (.value (.string "abc".toList))] := by cases m <;> decide +kernel


/-! ## engine/src/command/impl/type.rs 28-80 -/

/-- `test_key`, 38-52. -/
example (m : Mode) : ((dispatchType (sampleEnv m) (call .type none [foo, [1]]) []).run (sampleDb [(foo, .boolean true)])).1 = .ofOption (Response.asBytes (sampleEnv m) (.value (.integer (Int64.ofNat KeyType.boolean.toByte.toNat)))) := by cases m <;> decide +kernel

/-- `test_no_key`, 54-65. -/
example (m : Mode) : ((dispatchType (sampleEnv m) (call .type none []) []).run (sampleDb [])).1 = .err .keyUnspecified := by cases m <;> decide +kernel

/-- `test_key_type_specified`, 67-79. -/
example (m : Mode) : ((dispatchType (sampleEnv m) (call .type (some .boolean) []) []).run (sampleDb [])).1 = .err .keyUnspecified := by cases m <;> decide +kernel


/-! ## engine/src/command/impl/stats.rs 44-94 -/

/-- `test_stats_empty`, 55-64. -/
example (m : Mode) : ((dispatchStats (sampleEnv m) (call .stats none []) []).run (sampleDb [])).1 = .ofOption (Response.asBytes (sampleEnv m) (.value (.map []))) := by cases m <;> decide +kernel

/-- `test_stats_with_entry`, 66-79. -/
example (m : Mode) : ((dispatchStats (sampleEnv m) (call .stats none []) []).run ((incrementMetric (sampleEnv m) .commandsSuccessful (.done (.ok ()))).run .empty).2).1 =
    .ofOption (Response.asBytes (sampleEnv m) (.value (.map [(ascii "commands_successful", i64Bytes 1)]))) := by cases m <;> decide +kernel

/-- `test_stats_errors_with_key_type`, 81-93. -/
example (m : Mode) : ((dispatchStats (sampleEnv m) (call .stats (some .map) []) []).run (sampleDb [])).1 = .err .keyTypeUnexpected := by cases m <;> decide +kernel


/-! ## engine/src/command/impl/increment_by.rs 57-113 -/

/-- `test_decrement_by`, 67-85. -/
example (m : Mode) : ((dispatchIncrementBy (sampleEnv m) (call .incrementBy none [foo, i64Bytes 3]) []).run (sampleDb [])).1 = .ofOption (Response.asBytes (sampleEnv m) (.value (.integer 3))) ∧
    ((dispatchIncrementBy (sampleEnv m) (call .incrementBy none [foo, i64Bytes 3]) []).run (sampleDb [])).2.keys foo = some (.integer 3) := by cases m <;> decide +kernel

/-- `test_no_key`, 87-97: the request is one of Decrement. -/
example (m : Mode) : ((dispatchIncrementBy (sampleEnv m) (call .decrement none []) []).run (sampleDb [])).1 = .err .keyUnspecified := by cases m <;> decide +kernel

/-- `test_no_amount`, 99-112. -/
example (m : Mode) : ((dispatchIncrementBy (sampleEnv m) (call .incrementBy none [foo]) []).run (sampleDb [])).1 = .err .argumentRetrieval := by cases m <;> decide +kernel


/-! ## engine/src/command/impl/decrement_by.rs 24-79 -/

/-- `test_decrement_by`, 34-52. -/
example (m : Mode) : ((dispatchDecrementBy (sampleEnv m) (call .decrementBy none [foo, i64Bytes 3]) []).run (sampleDb [])).1 = .ofOption (Response.asBytes (sampleEnv m) (.value (.integer (-3)))) ∧
    ((dispatchDecrementBy (sampleEnv m) (call .decrementBy none [foo, i64Bytes 3]) []).run (sampleDb [])).2.keys foo = some (.integer (-3)) := by cases m <;> decide +kernel

/-- `test_no_key`, 54-64: the request is one of Decrement. -/
example (m : Mode) : ((dispatchDecrementBy (sampleEnv m) (call .decrement none []) []).run (sampleDb [])).1 = .err .keyUnspecified := by cases m <;> decide +kernel

/-- `test_no_amount`, 66-78. -/
example (m : Mode) : ((dispatchDecrementBy (sampleEnv m) (call .decrementBy none [foo]) []).run (sampleDb [])).1 = .err .argumentRetrieval := by cases m <;> decide +kernel


/-! ## engine/src/command/impl/increment.rs 22-62 -/

/-- `test_increment`, 32-49. -/
example (m : Mode) : ((dispatchIncrement (sampleEnv m) (call .increment none [foo]) []).run (sampleDb [])).1 = .ofOption (Response.asBytes (sampleEnv m) (.value (.integer 1))) ∧
    ((dispatchIncrement (sampleEnv m) (call .increment none [foo]) []).run (sampleDb [])).2.keys foo = some (.integer 1) := by cases m <;> decide +kernel

/-- `test_no_key`, 51-61. -/
example (m : Mode) : ((dispatchIncrement (sampleEnv m) (call .increment none []) []).run (sampleDb [])).1 = .err .keyUnspecified := by cases m <;> decide +kernel


/-! ## engine/src/command/impl/decrement.rs 22-62 -/

/-- `test_decrement`, 32-49. -/
example (m : Mode) : ((dispatchDecrement (sampleEnv m) (call .decrement none [foo]) []).run (sampleDb [])).1 = .ofOption (Response.asBytes (sampleEnv m) (.value (.integer (-1)))) ∧
    ((dispatchDecrement (sampleEnv m) (call .decrement none [foo]) []).run (sampleDb [])).2.keys foo = some (.integer (-1)) := by cases m <;> decide +kernel

/-- `test_no_key`, 51-61. -/
example (m : Mode) : ((dispatchDecrement (sampleEnv m) (call .decrement none []) []).run (sampleDb [])).1 = .err .keyUnspecified := by cases m <;> decide +kernel


/-! ## engine/src/command/impl/rename.rs 34-116 -/

/-- `test_rename_valid`, 44-58. -/
example (m : Mode) : ((dispatchRename (sampleEnv m) (call .rename none [foo, bar]) []).run (sampleDb [(foo, .bytes [1, 2, 3])])).1 = .ofOption (Response.asBytes (sampleEnv m) (.value (.bytes bar))) := by cases m <;> decide +kernel

/-- `test_rename_src_nonexistent`, 60-74. -/
example (m : Mode) : ((dispatchRename (sampleEnv m) (call .rename none [foo, bar]) []).run (sampleDb [])).1 = .err .keyNonexistent := by cases m <;> decide +kernel

/-- `test_rename_destination_already_exists`, 76-92. -/
example (m : Mode) : ((dispatchRename (sampleEnv m) (call .rename none [foo, bar]) []).run (sampleDb [(foo, .default .bytes), (bar, .default .bytes)])).1 = .err .preconditionFailed := by cases m <;> decide +kernel

/-- `test_too_few_arguments`, 94-115. -/
example (m : Mode) : ((dispatchRename (sampleEnv m) (call .rename none [foo]) []).run (sampleDb [])).1 = .err .argumentRetrieval := by cases m <;> decide +kernel

/-- `test_too_few_arguments`, 94-115. -/
example (m : Mode) : ((dispatchRename (sampleEnv m) (call .rename none []) []).run (sampleDb [])).1 = .err .keyUnspecified := by cases m <;> decide +kernel


/-! ## engine/src/command/impl/length.rs 88-248 -/

/-- `test_no_args`, 99-110. -/
example (m : Mode) : ((dispatchLength (sampleEnv m) (call .length none []) []).run (sampleDb [])).1 = .err .keyUnspecified := by cases m <;> decide +kernel

/-- `test_invalid_key_type`, 112-131. -/
example (m : Mode) : ((dispatchLength (sampleEnv m) (call .length (some .boolean) [foo]) []).run (sampleDb [])).1 = .err .keyTypeInvalid := by cases m <;> decide +kernel

/-- `test_invalid_key_type`, 112-131. -/
example (m : Mode) : ((dispatchLength (sampleEnv m) (call .length (some .float) [foo]) []).run (sampleDb [])).1 = .err .keyTypeInvalid := by cases m <;> decide +kernel

/-- `test_invalid_key_type`, 112-131. -/
example (m : Mode) : ((dispatchLength (sampleEnv m) (call .length (some .integer) [foo]) []).run (sampleDb [])).1 = .err .keyTypeInvalid := by cases m <;> decide +kernel

/-- `test_default_when_key_nonexistent`, 133-146. -/
example (m : Mode) : ((dispatchLength (sampleEnv m) (call .length none [foo]) []).run (sampleDb [])).1 = .err .keyNonexistent := by cases m <;> decide +kernel

/-- `test_default_when_bytes_exists`, 148-162. -/
example (m : Mode) : ((dispatchLength (sampleEnv m) (call .length none [foo]) []).run (sampleDb [(foo, .bytes [1, 2, 3])])).1 = .ofOption (Response.asBytes (sampleEnv m) (.value (.integer 3))) := by cases m <;> decide +kernel

/-- `test_default_when_list_exists`, 164-178. -/
example (m : Mode) : ((dispatchLength (sampleEnv m) (call .length none [hop]) []).run (sampleDb [(hop, .list [db])])).1 = .ofOption (Response.asBytes (sampleEnv m) (.value (.integer 1))) := by cases m <;> decide +kernel

/-- `test_default_when_map_exists`, 180-194. -/
example (m : Mode) : ((dispatchLength (sampleEnv m) (call .length none [hop]) []).run (sampleDb [(hop, .map [(foo, bar)])])).1 = .ofOption (Response.asBytes (sampleEnv m) (.value (.integer 1))) := by cases m <;> decide +kernel

/-- `test_default_when_set_exists`, 196-210. -/
example (m : Mode) : ((dispatchLength (sampleEnv m) (call .length none [hop]) []).run (sampleDb [(hop, .set [foo])])).1 = .ofOption (Response.asBytes (sampleEnv m) (.value (.integer 1))) := by cases m <;> decide +kernel

/-- `test_default_when_string_exists`, 212-247. -/
example (m : Mode) : ((dispatchLength (sampleEnv m) (call .length none [foo]) []).run (sampleDb [(foo, .string "1234".toList), (ascii "cowboy", .string "🤠".toList)])).1 = .ofOption (Response.asBytes (sampleEnv m) (.value (.integer 4))) := by cases m <;> decide +kernel

/-- `test_default_when_string_exists`, 212-247: four bytes, one character. -/
example (m : Mode) : ((dispatchLength (sampleEnv m) (call .length none [ascii "cowboy"]) []).run (sampleDb [(foo, .string "1234".toList), (ascii "cowboy", .string "🤠".toList)])).1 = .ofOption (Response.asBytes (sampleEnv m) (.value (.integer 1))) ∧ (strBytes "🤠".toList).length = 4 := by cases m <;> decide +kernel


/-! ## engine/src/command/impl/echo.rs 22-71 -/

/-- `test_input`, 31-55. -/
example (m : Mode) : ((dispatchEcho (sampleEnv m) (call .echo none [ascii "hopdb"]) []).run (sampleDb [])).1 = .ofOption (Response.asBytes (sampleEnv m) (.value (.list [ascii "hopdb"]))) := by cases m <;> decide +kernel

/-- `test_input`, 31-55. -/
example (m : Mode) : ((dispatchEcho (sampleEnv m) (call .echo none [ascii "hopdb", hop]) []).run (sampleDb [])).1 = .ofOption (Response.asBytes (sampleEnv m) (.value (.list [ascii "hopdb", hop]))) := by cases m <;> decide +kernel

/-- `test_empty`, 57-70. -/
example (m : Mode) : ((dispatchEcho (sampleEnv m) (call .echo none []) []).run (sampleDb [])).1 = .ofOption (Response.asBytes (sampleEnv m) (.value (.list []))) := by cases m <;> decide +kernel


/-! ## engine/src/command/impl/exists.rs 23-123 -/

/-- `test_one_key`, 33-46. -/
example (m : Mode) : ((dispatchExists (sampleEnv m) (call .exists none [foo]) []).run (sampleDb [(foo, .bytes [1, 2, 3])])).1 = .ofOption (Response.asBytes (sampleEnv m) (.value (.boolean true))) := by cases m <;> decide +kernel

/-- `test_two_keys_both_exist`, 48-64. -/
example (m : Mode) : ((dispatchExists (sampleEnv m) (call .exists none [foo, bar]) []).run (sampleDb [(foo, .bytes [1, 2, 3]), (bar, .bytes [1, 2, 3])])).1 = .ofOption (Response.asBytes (sampleEnv m) (.value (.boolean true))) := by cases m <;> decide +kernel

/-- `test_two_keys_one_exists`, 66-80. -/
example (m : Mode) : ((dispatchExists (sampleEnv m) (call .exists none [foo, bar]) []).run (sampleDb [(foo, .bytes [1, 2, 3])])).1 = .ofOption (Response.asBytes (sampleEnv m) (.value (.boolean false))) := by cases m <;> decide +kernel

/-- `test_one_key_doesnt_exist`, 82-93. -/
example (m : Mode) : ((dispatchExists (sampleEnv m) (call .exists none [foo]) []).run (sampleDb [])).1 = .ofOption (Response.asBytes (sampleEnv m) (.value (.boolean false))) := by cases m <;> decide +kernel

/-- `test_no_arguments`, 95-106. -/
example (m : Mode) : ((dispatchExists (sampleEnv m) (call .exists none []) []).run (sampleDb [])).1 = .err .argumentRetrieval := by cases m <;> decide +kernel

/-- `test_key_type_specified`, 108-122. -/
example (m : Mode) : ((dispatchExists (sampleEnv m) (call .exists (some .list) [foo, bar]) []).run (sampleDb [])).1 = .err .keyTypeUnexpected := by cases m <;> decide +kernel


/-! ## engine/src/command/impl/set.rs 152-373 -/

/-- `test_types_no_arg`, 162-190. -/
example (m : Mode) : ∀ t ∈ [KeyType.boolean, .bytes, .float, .integer, .list, .map, .set, .string],
    ((dispatchSet (sampleEnv m) (call .set (some t) [foo]) []).run .empty).1 = .err .argumentRetrieval := by cases m <;> decide +kernel

/-- `test_bool`, 192-212. -/
example (m : Mode) : ((dispatchSet (sampleEnv m) (call .set (some .boolean) [foo, [1]]) []).run (sampleDb [])).1 = .ofOption (Response.asBytes (sampleEnv m) (.value (.boolean true))) ∧
    ((dispatchSet (sampleEnv m) (call .set (some .boolean) [foo, [1]]) []).run (sampleDb [])).2.keys foo = some (.boolean true) := by cases m <;> decide +kernel

/-- `test_bytes`, 214-234. -/
example (m : Mode) : ((dispatchSet (sampleEnv m) (call .set (some .bytes) [foo, ascii "bar baz"]) []).run (sampleDb [])).1 = .ofOption (Response.asBytes (sampleEnv m) (.value (.bytes (ascii "bar baz")))) ∧
    ((dispatchSet (sampleEnv m) (call .set (some .bytes) [foo, ascii "bar baz"]) []).run (sampleDb [])).2.keys foo = some (.bytes (ascii "bar baz")) := by cases m <;> decide +kernel

/-- `test_float`, 236-256: the bits of 2.0. -/
example (m : Mode) : ((dispatchSet (sampleEnv m) (call .set (some .float) [foo, [64, 0, 0, 0, 0, 0, 0, 0]]) []).run (sampleDb [])).1 = .ofOption (Response.asBytes (sampleEnv m) (.value (.float ⟨0x4000000000000000⟩))) ∧
    ((dispatchSet (sampleEnv m) (call .set (some .float) [foo, [64, 0, 0, 0, 0, 0, 0, 0]]) []).run (sampleDb [])).2.keys foo = some (.float ⟨0x4000000000000000⟩) := by cases m <;> decide +kernel

/-- `test_int`, 258-278. -/
example (m : Mode) : ((dispatchSet (sampleEnv m) (call .set (some .integer) [foo, i64Bytes 2]) []).run (sampleDb [])).1 = .ofOption (Response.asBytes (sampleEnv m) (.value (.integer 2))) ∧
    ((dispatchSet (sampleEnv m) (call .set (some .integer) [foo, i64Bytes 2]) []).run (sampleDb [])).2.keys foo = some (.integer 2) := by cases m <;> decide +kernel

/-- `test_list_three_entries`, 280-302. -/
example (m : Mode) : ((dispatchSet (sampleEnv m) (call .set (some .list) [foo, ascii "value1", ascii "value2", ascii "value2"]) []).run .empty).2.keys foo = some (.list [ascii "value1", ascii "value2", ascii "value2"]) := by cases m <;> decide +kernel

/-- `test_map_two_entries`, 304-327. -/
example (m : Mode) : ((dispatchSet (sampleEnv m) (call .set (some .map) [foo, ascii "key1", ascii "value1", ascii "key2", ascii "value2"]) []).run .empty).2.keys foo = some (.map [(ascii "key1", ascii "value1"), (ascii "key2", ascii "value2")]) := by cases m <;> decide +kernel

/-- `test_set_two_entries`, 329-350. -/
example (m : Mode) : ((dispatchSet (sampleEnv m) (call .set (some .set) [foo, ascii "value1", ascii "value2"]) []).run .empty).2.keys foo = some (.set [ascii "value1", ascii "value2"]) := by cases m <;> decide +kernel

/-- `test_str`, 352-372. -/
example (m : Mode) : ((dispatchSet (sampleEnv m) (call .set (some .string) [foo, bar]) []).run (sampleDb [])).1 = .ofOption (Response.asBytes (sampleEnv m) (.value (.string "bar".toList))) ∧
    ((dispatchSet (sampleEnv m) (call .set (some .string) [foo, bar]) []).run (sampleDb [])).2.keys foo = some (.string "bar".toList) := by cases m <;> decide +kernel


/-! ## engine/src/command/impl/keys.rs 37-113 -/

/-- `test_map_no_key_type_two_pairs`, 48-65: one of the two, depending on the order of iteration. -/
example (m : Mode) : ((dispatchKeys (plainEnv m) (call .keys none [foo]) []).run (sampleDb [(foo, .map [(ascii "key1", ascii "value2"), (ascii "key2", ascii "value2")])])).1 =
      .ofOption (Response.asBytes (plainEnv m) (.value (.list [ascii "key1", ascii "key2"]))) ∧
    ((dispatchKeys (sampleEnv m) (call .keys none [foo]) []).run (sampleDb [(foo, .map [(ascii "key1", ascii "value2"), (ascii "key2", ascii "value2")])])).1 =
      .ofOption (Response.asBytes (sampleEnv m) (.value (.list [ascii "key2", ascii "key1"]))) := by cases m <;> decide +kernel

/-- `test_map_key_type`, 67-81. -/
example (m : Mode) : ((dispatchKeys (sampleEnv m) (call .keys (some .map) [foo]) []).run (sampleDb [(foo, .map [(ascii "key", ascii "value")])])).1 = .ofOption (Response.asBytes (sampleEnv m) (.value (.list [ascii "key"]))) := by cases m <;> decide +kernel

/-- `test_key_type_invalid`, 83-96. -/
example (m : Mode) : ((dispatchKeys (sampleEnv m) (call .keys (some .integer) [foo]) []).run (sampleDb [])).1 = .err .keyTypeInvalid := by cases m <;> decide +kernel

/-- `test_key_type_different`, 98-112. -/
example (m : Mode) : ((dispatchKeys (sampleEnv m) (call .keys (some .map) [foo]) []).run (sampleDb [(foo, .integer 1)])).1 = .err .keyTypeDifferent := by cases m <;> decide +kernel


/-! ## engine/src/command/impl/is.rs 27-116 -/

/-- `test_one_arg`, 37-50. -/
example (m : Mode) : ((dispatchIs (sampleEnv m) (call .is (some .string) [foo]) []).run (sampleDb [(foo, .default .string)])).1 = .ofOption (Response.asBytes (sampleEnv m) (.value (.boolean true))) := by cases m <;> decide +kernel

/-- `test_two_args`, 52-67. -/
example (m : Mode) : ((dispatchIs (sampleEnv m) (call .is (some .string) [foo, bar]) []).run (sampleDb [(foo, .default .string), (bar, .default .string)])).1 = .ofOption (Response.asBytes (sampleEnv m) (.value (.boolean true))) := by cases m <;> decide +kernel

/-- `test_two_mismatched`, 69-84. -/
example (m : Mode) : ((dispatchIs (sampleEnv m) (call .is (some .string) [foo, bar]) []).run (sampleDb [(foo, .default .string), (bar, .default .integer)])).1 = .ofOption (Response.asBytes (sampleEnv m) (.value (.boolean false))) := by cases m <;> decide +kernel

/-- `test_no_arguments`, 86-99. -/
example (m : Mode) : ((dispatchIs (sampleEnv m) (call .is (some .bytes) []) []).run (sampleDb [])).1 = .err .argumentRetrieval := by cases m <;> decide +kernel

/-- `test_key_type_unspecified`, 101-115. -/
example (m : Mode) : ((dispatchIs (sampleEnv m) (call .is none [foo]) []).run (sampleDb [])).1 = .err .keyTypeRequired := by cases m <;> decide +kernel


/-! ## engine/src/command/impl/delete.rs 26-94, with requests of DecrementBy -/

/-- `test_valid`, 43-55. -/
example (m : Mode) : ((dispatchDelete (sampleEnv m) (call .decrementBy none [foo]) []).run (sampleDb [(foo, .bytes foo)])).1 = .ofOption (Response.asBytes (sampleEnv m) (.value (.bytes foo))) ∧
    ((dispatchDelete (sampleEnv m) (call .decrementBy none [foo]) []).run (sampleDb [(foo, .bytes foo)])).2.keys foo = none := by cases m <;> decide +kernel

/-- `test_nonexistent`, 57-68. -/
example (m : Mode) : ((dispatchDelete (sampleEnv m) (call .decrementBy none [foo]) []).run (sampleDb [])).1 = .err .preconditionFailed := by cases m <;> decide +kernel

/-- `test_key_type_specified`, 70-81. -/
example (m : Mode) : ((dispatchDelete (sampleEnv m) (call .decrementBy (some .bytes) [foo]) []).run (sampleDb [])).1 = .err .keyTypeUnexpected := by cases m <;> decide +kernel

/-- `test_no_arguments`, 83-93. -/
example (m : Mode) : ((dispatchDelete (sampleEnv m) (call .delete none []) []).run (sampleDb [])).1 = .err .keyUnspecified := by cases m <;> decide +kernel


/-! ## engine/src/command/impl/get.rs 29-124 -/

/-- `test_bool`, 39-51. -/
example (m : Mode) : ((dispatchGet (sampleEnv m) (call .get none [foo]) []).run (sampleDb [(foo, .boolean false)])).1 = .ofOption (Response.asBytes (sampleEnv m) (.value (.boolean false))) := by cases m <;> decide +kernel

/-- `test_bool_specified_key_type`, 53-65. -/
example (m : Mode) : ((dispatchGet (sampleEnv m) (call .get (some .boolean) [foo]) []).run (sampleDb [(foo, .boolean true)])).1 = .ofOption (Response.asBytes (sampleEnv m) (.value (.boolean true))) := by cases m <;> decide +kernel

/-- `test_int`, 67-79. -/
example (m : Mode) : ((dispatchGet (sampleEnv m) (call .get none [foo]) []).run (sampleDb [(foo, .integer 123)])).1 = .ofOption (Response.asBytes (sampleEnv m) (.value (.integer 123))) := by cases m <;> decide +kernel

/-- `test_no_key`, 81-92. -/
example (m : Mode) : ((dispatchGet (sampleEnv m) (call .get none []) []).run (sampleDb [])).1 = .err .keyUnspecified := by cases m <;> decide +kernel

/-- `test_key_nonexistent`, 94-107. -/
example (m : Mode) : ((dispatchGet (sampleEnv m) (call .get none [foo]) []).run (sampleDb [])).1 = .err .keyNonexistent := by cases m <;> decide +kernel

/-- `test_key_type_different`, 109-123. -/
example (m : Mode) : ((dispatchGet (sampleEnv m) (call .get (some .boolean) [foo]) []).run (sampleDb [(foo, .integer 123)])).1 = .err .keyTypeDifferent := by cases m <;> decide +kernel


/-! ## engine/src/state/mod.rs 212-244 -/

/-- `test_key_type_nonexistent_key`, 229-233. -/
example (m : Mode) : (((State.Op.keyType foo).prog (sampleEnv m)).run .empty).1 = .ok (.type none) := by cases m <;> decide +kernel

/-- `test_key_type_with_key`, 235-243. -/
example (m : Mode) : let db := (((State.Op.insert foo (.bytes [1, 2])).prog (sampleEnv m)).run .empty).2
    (((State.Op.keyType foo).prog (sampleEnv m)).run db).1 = .ok (.type (some .bytes)) ∧
    (((State.Op.keyType bar).prog (sampleEnv m)).run (((State.Op.insert bar (.integer 123)).prog (sampleEnv m)).run db).2).1 = .ok (.type (some .integer)) := by cases m <;> decide +kernel

end Hop.Tests.Engine
