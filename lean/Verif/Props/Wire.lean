import Verif.Proof.Wire
/-
C67: messages survive the connection.  Whatever message either side sends, the other side reads exactly that message,
one per line, whatever characters its texts contain.
-/
namespace Rudy.Wire
open Rudy Rudy.Server

/-! ### Specification -/

/-- The numbers of the result of a call fit the 64 bits the server keeps. -/
def callFits : CallResult → Prop
  | .simple v _ => v < 2 ^ 64
  | .complex a n _ => a < 2 ^ 64 ∧ n < 2 ^ 64

/-- The numbers of an answer fit the 64 bits the server keeps. -/
def answerFits : Answer → Prop
  | .register v => v < 2 ^ 64
  | .frame pc sp fp => pc < 2 ^ 64 ∧ sp < 2 ^ 64 ∧ fp < 2 ^ 64
  | .thread tid _ => tid < 2 ^ 64
  | .base a => a < 2 ^ 64
  | .method r => callFits r
  | .function r => callFits r
  | .allocated a => a < 2 ^ 64
  | _ => True

/-- The numbers of a message of the client fit. -/
def Fits : ClientMsg → Prop
  | .answer a => answerFits a
  | _ => True

/-- What the client should make of a message of the server: the message. -/
def meant : Reply → Heard
  | .event e => .event (some e)
  | .complete r => .complete r
  | .error t _ => .error t

/-! ### Reading what was encoded -/

theorem toList_ofList (l : List Json) : (Jsons.ofList l).toList = l := by
  induction l with
  | nil => rfl
  | cons v l ih => simp [Jsons.ofList, Jsons.toList, ih]

theorem allOf_map {α β γ : Type} {f : α → Option β} {g : γ → α} {h : γ → β} (hf : ∀ c, f (g c) = some (h c)) (l : List γ) :
    allOf f (l.map g) = some (l.map h) := by
  induction l with
  | nil => rfl
  | cons c l ih => simp [allOf, hf, ih]

theorem byte_back (b : UInt8) : decByte (.num b.toNat) = some b := by
  have := b.toNat_lt
  simp [decByte]
  omega

theorem pyByte_back (b : UInt8) : pyByte (.num b.toNat) = some b := byte_back b

theorem bytes_back (d : List UInt8) : allOf decByte (d.map fun b => Json.num b.toNat) = some d := by
  rw [allOf_map (h := id) byte_back]; simp

theorem pyBytes_back (d : List UInt8) : allOf pyByte (d.map fun b => Json.num b.toNat) = some d := by
  rw [allOf_map (h := id) pyByte_back]; simp

theorem texts_back (l : List Str) : allOf decText (l.map Json.str) = some l := by
  rw [allOf_map (f := decText) (g := Json.str) (h := id) (fun _ => rfl)]; simp

theorem pyArg_back (a : Arg) : pyArg (encArg a) = some a := by
  obtain ⟨v, t, n⟩ := a
  cases t <;> cases n <;> rfl

theorem pyArgs_back (l : List Arg) : allOf pyArg (l.map encArg) = some l := by
  rw [allOf_map (h := id) pyArg_back]; simp

theorem decU64_num {fs : Fields} {k : Str} {n : Nat} (h : fs.get k = some (.num n)) (hn : n < 2 ^ 64) : decU64 fs k = some n := by
  rw [decU64, h]
  simp only
  rw [if_pos (by simpa [u64Max1] using hn)]

theorem decOptStr_opt {fs : Fields} {k : Str} {o : Option Str} (h : fs.get k = some (optStr o)) : decOptStr fs k = some o := by
  rw [decOptStr, h]
  cases o <;> rfl

theorem getOptNum_opt {fs : Fields} {k : Str} {o : Option Nat} (h : fs.get k = some (optNum o)) : getOptNum fs k = some o := by
  rw [getOptNum, h]
  cases o <;> rfl

theorem call_back (r : CallResult) (h : callFits r) : decCallResult (some (encCallResult r)) = some r := by
  cases r with
  | simple v t =>
    have hv : decU64 (Fields.ofList [(chars! "value", .num v), (chars! "return_type", .str t)]) (chars! "value") = some v :=
      decU64_num rfl h
    simp only [encCallResult, object, Fields.ofList, decCallResult] at hv ⊢
    rw [if_pos trivial, hv]
    rfl
  | complex a n t =>
    have ha : decU64 (Fields.ofList [(chars! "address", .num a), (chars! "size", .num n), (chars! "return_type", .str t)])
        (chars! "address") = some a := decU64_num rfl h.1
    have hn : decU64 (Fields.ofList [(chars! "address", .num a), (chars! "size", .num n), (chars! "return_type", .str t)])
        (chars! "size") = some n := decU64_num rfl h.2
    simp only [encCallResult, object, Fields.ofList, decCallResult] at ha hn ⊢
    rw [if_neg (by decide), if_pos trivial, ha, hn]
    rfl

theorem dec_client (m : ClientMsg) (h : Fits m) : decClient (encClient m) = some m := by
  cases m with
  | init p => rfl
  | command c args =>
    show (allOf decText (Jsons.ofList (args.map .str)).toList).map (ClientMsg.command c) = _
    rw [toList_ofList, texts_back]; rfl
  | answer a =>
    cases a with
    | memory d =>
      show ((allOf decByte (Jsons.ofList (d.map fun b => Json.num b.toNat)).toList).map Answer.memory).map ClientMsg.answer = _
      rw [toList_ofList, bytes_back]; rfl
    | register v =>
      show ((decU64 (Fields.ofList _) (chars! "value")).map Answer.register).map ClientMsg.answer = _
      rw [decU64_num rfl h]; rfl
    | frame pc sp fp =>
      show ((match decU64 (Fields.ofList _) (chars! "pc"), decU64 (Fields.ofList _) (chars! "sp"), decU64 (Fields.ofList _) (chars! "fp") with
        | some pc, some sp, some fp => some (Answer.frame pc sp fp)
        | _, _, _ => none)).map ClientMsg.answer = _
      rw [decU64_num rfl h.1, decU64_num rfl h.2.1, decU64_num rfl h.2.2]; rfl
    | thread tid name =>
      show ((match decU64 (Fields.ofList _) (chars! "tid"), decOptStr (Fields.ofList _) (chars! "name") with
        | some t, some n => some (Answer.thread t n)
        | _, _ => none)).map ClientMsg.answer = _
      rw [decU64_num rfl h, decOptStr_opt rfl]; rfl
    | base a =>
      show ((decU64 (Fields.ofList _) (chars! "address")).map Answer.base).map ClientMsg.answer = _
      rw [decU64_num rfl h]; rfl
    | expression v => rfl
    | method r =>
      show ((decCallResult (some (encCallResult r))).map Answer.method).map ClientMsg.answer = _
      rw [call_back r h]; rfl
    | function r =>
      show ((decCallResult (some (encCallResult r))).map Answer.function).map ClientMsg.answer = _
      rw [call_back r h]; rfl
    | variableType n =>
      show ((decOptStr (Fields.ofList _) (chars! "type_name")).map Answer.variableType).map ClientMsg.answer = _
      rw [decOptStr_opt rfl]; rfl
    | allocated a =>
      show ((decU64 (Fields.ofList _) (chars! "address")).map Answer.allocated).map ClientMsg.answer = _
      rw [decU64_num rfl h]; rfl
    | written => rfl
    | error m => rfl

theorem hear_reply (m : Reply) : hear (encReply m) = meant m := by
  cases m with
  | complete r => rfl
  | error t b => rfl
  | event e =>
    show Heard.event (pyEvent (Fields.ofList _)) = Heard.event (some e)
    congr 1
    cases e with
    | readMemory a n => rfl
    | readRegister n => rfl
    | readRegisterByIndex i => rfl
    | getFrameInfo => rfl
    | getThreadInfo => rfl
    | getBaseAddress => rfl
    | evaluateLldb e => rfl
    | executeMethod a b args r =>
      show (match some a, some b, allOf pyArg (Jsons.ofList (args.map encArg)).toList, getOptNum (Fields.ofList _) (chars! "return_type_size") with
        | some a, some b, some args, some r => some (Event.executeMethod a b args r)
        | _, _, _, _ => none) = _
      rw [toList_ofList, pyArgs_back, getOptNum_opt rfl]
    | executeFunction a args r =>
      show (match some a, allOf pyArg (Jsons.ofList (args.map encArg)).toList, getOptNum (Fields.ofList _) (chars! "return_type_size") with
        | some a, some args, some r => some (Event.executeFunction a args r)
        | _, _, _ => none) = _
      rw [toList_ofList, pyArgs_back, getOptNum_opt rfl]
    | getVariableType n => rfl
    | allocate n => rfl
    | write a d =>
      show (match some a, allOf pyByte (Jsons.ofList (d.map fun b => Json.num b.toNat)).toList with
        | some a, some d => some (Event.write a d)
        | _, _ => none) = _
      rw [toList_ofList, pyBytes_back]

theorem encClient_object (m : ClientMsg) : ∃ fs, encClient m = object fs := by cases m <;> exact ⟨_, rfl⟩
theorem encReply_object (m : Reply) : ∃ fs, encReply m = object fs := by cases m <;> exact ⟨_, rfl⟩

theorem object_ne (fs : List (Str × Json)) (st : Style) : (object fs).print st ≠ [] := by rw [object, Json.print]; simp

/-! ### C67 -/

/-- Whatever value is written as JSON by either side, reading the text gives that value back. -/
theorem C67_json (v : Json) : parse (v.print serde) = some v ∧ parse (v.print python) = some v :=
  ⟨parse_print good_serde v, parse_print good_python v⟩

/-- Each message of either side is one line: its only end of line is the last character. -/
theorem C67_one_line : (∀ m : ClientMsg, ∃ t, clientText m = t ++ ['\n'] ∧ '\n' ∉ t ∧ '\r' ∉ t) ∧
    (∀ m : Reply, ∃ t, serverText m = t ++ ['\n'] ∧ '\n' ∉ t ∧ '\r' ∉ t) := by
  have key : ∀ {s : Str}, OneLine s → '\n' ∉ s ∧ '\r' ∉ s := by
    intro s h
    constructor <;> intro hm <;> (have := h _ hm; revert this; decide)
  exact ⟨fun m => ⟨_, rfl, key (oneLine_print flat_python _)⟩, fun m => ⟨_, rfl, key (oneLine_print flat_serde _)⟩⟩

theorem serverLine_text (m : ClientMsg) (h : Fits m) : serverLine ((encClient m).print python) = .msg m := by
  have hd := dec_client m h
  obtain ⟨fs, he⟩ := encClient_object m
  rw [serverLine, he, trim_object]
  split
  · rename_i hn; exact absurd hn (object_ne fs python)
  · rw [parse_print good_python, ← he, Option.bind_some, hd]

theorem clientLine_text (m : Reply) : clientLine ((encReply m).print serde) = some (meant m) := by
  have hh := hear_reply m
  obtain ⟨fs, he⟩ := encReply_object m
  rw [clientLine, he, trim_object]
  split
  · rename_i hn; exact absurd hn (object_ne fs serde)
  · rw [parse_print good_serde, ← he, Option.map_some, hh]

/-- The messages the server reads from the text of any sequence of messages of the client are those messages, in
order, nothing added or lost. -/
theorem C67_to_server (ms : List ClientMsg) (h : ∀ m ∈ ms, Fits m) :
    (lines (ms.flatMap clientText) []).map serverLine = ms.map .msg := by
  induction ms with
  | nil => rfl
  | cons m ms ih =>
    rw [List.flatMap_cons, clientText, List.append_assoc, List.singleton_append, lines_line (oneLine_print flat_python _)]
    rw [List.nil_append, List.map_cons, List.map_cons, serverLine_text m (h m (by simp)), ih (fun m hm => h m (by simp [hm]))]

/-- The messages the client reads from the text of any sequence of messages of the server mean what the server meant,
in order, nothing added or lost. -/
theorem C67_to_client (ms : List Reply) : (lines (ms.flatMap serverText) []).map clientLine = ms.map fun m => some (meant m) := by
  induction ms with
  | nil => rfl
  | cons m ms ih =>
    rw [List.flatMap_cons, serverText, List.append_assoc, List.singleton_append, lines_line (oneLine_print flat_serde _)]
    rw [List.nil_append, List.map_cons, List.map_cons, clientLine_text m, ih]

/-- Different messages of the client have different texts, so nothing the user types can pass for something else. -/
theorem C67_injective {m m' : ClientMsg} (h : Fits m) (h' : Fits m') (e : clientText m = clientText m') : m = m' := by
  have e' : (encClient m).print python = (encClient m').print python := List.append_cancel_right e
  have h1 := serverLine_text m h
  rw [e', serverLine_text m' h'] at h1
  cases h1
  rfl

/-- A whole session over the wire: the server goes through the same steps as on the messages themselves. -/
theorem C67_session (load : Str → Option Backend) (ms : List ClientMsg) (h : ∀ m ∈ ms, Fits m) :
    session load ((lines (ms.flatMap clientText) []).map serverLine) = session load (ms.map .msg) := by
  rw [C67_to_server ms h]

/-- A value that does not fit 64 bits (a vector register, say) is never cut down to another value: the server treats
the message as unreadable. -/
theorem C67_wide (v : Nat) (h : 2 ^ 64 ≤ v) : serverLine ((encClient (.answer (.register v))).print python) = .bad := by
  obtain ⟨fs, he⟩ := encClient_object (.answer (.register v))
  have hd : decClient (encClient (.answer (.register v))) = none := by
    show ((decU64 (Fields.ofList _) (chars! "value")).map Answer.register).map ClientMsg.answer = _
    have : decU64 (Fields.ofList ((chars! "type", .str (chars! "EventResponse")) :: encAnswer (.register v))) (chars! "value") = none := by
      show (if v < u64Max1 then some v else none) = none
      rw [if_neg (by simpa [u64Max1] using h)]
    rw [this]; rfl
  rw [serverLine, he, trim_object]
  split
  · rfl
  · rw [parse_print good_python, ← he, Option.bind_some, hd]

/-! ### Cases -/

/-- The characters JSON treats specially, an end of line, a control character, one outside ASCII and one outside the
basic plane arrive unchanged in a command. -/
example : serverLine ((encClient (.command (chars! "print") [['m', '[', '"', '\\', '\n', '\x01', 'é', '😀', ']']])).print python) =
    .msg (.command (chars! "print") [['m', '[', '"', '\\', '\n', '\x01', 'é', '😀', ']']]) :=
  serverLine_text _ trivial

example : (encClient (.command (chars! "p") [['😀', '"']])).print python =
    chars! "{\"type\": \"Command\", \"cmd\": \"p\", \"args\": [\"\\ud83d\\ude00\\\"\"]}" := by decide

example : (encReply (.event (.readMemory 4096 8))).print serde =
    chars! "{\"type\":\"Event\",\"event\":\"ReadMemory\",\"address\":4096,\"size\":8}" := by decide

example : (lines (clientText (.init (chars! "/a")) ++ clientText (.answer (.register (2 ^ 64 - 1)))) []).map serverLine =
    [.msg (.init (chars! "/a")), .msg (.answer (.register (2 ^ 64 - 1)))] := by
  have := C67_to_server [.init (chars! "/a"), .answer (.register (2 ^ 64 - 1))] (by
    intro m hm
    simp at hm
    rcases hm with rfl | rfl
    · trivial
    · simp [Fits, answerFits])
  simpa using this

example : serverLine ((encClient (.answer (.register (2 ^ 64)))).print python) = .bad := C67_wide _ (Nat.le_refl _)

end Rudy.Wire
