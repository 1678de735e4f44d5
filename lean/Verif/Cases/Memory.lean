import Verif.Props.Memory
import Verif.Cases.Life

/-!
For each theorem of `Props/Memory.lean` that has hypotheses, a concrete case that meets them.
-/

namespace Verif.Cases

open State Props Props.Demo Verif.Spec Mem

/-- Two arrays; a slice of the first with three bytes and room for forty more, and one with room for a single byte more. -/
def ram : Mem UInt8 := ⟨fun a => if a = 0 then List.replicate 50 7 else [1, 2, 3, 4], 2⟩
def roomy : Slice := ⟨0, 2, 3, 43⟩
def tight : Slice := ⟨1, 0, 3, 4⟩
theorem roomy_wf : ram.Wf roomy := ⟨by decide, by decide, by decide⟩
theorem tight_wf : ram.Wf tight := ⟨by decide, by decide, by decide⟩

/-- The runtime doubles. -/
def doubling (cap _needed : Nat) : Nat := 2 * cap

/-- C103: the share message of signer 2, with 37 bytes. -/
def shareMsg (z : Scalar) : Message Toy := Message.newSign2 2 z
def afterShare : GoRes Slice × Mem UInt8 := (shareMsg 5).bytesAppendMem doubling roomy ram
def afterTight : GoRes Slice × Mem UInt8 := (shareMsg 5).bytesAppendMem doubling tight ram

/-- With room, it ends in the same array; the byte behind the 37 is as it was. -/
example : afterShare.1 = .ok ⟨0, 2, 40, 43⟩ := by decide +kernel
example : (afterShare.2.array 0).take 12 = [7, 7, 7, 7, 7, 4, 0, 2, 0, 0, 5, 0] ∧ (afterShare.2.array 0)[42]? = some 7 ∧ afterShare.2.next = 2 := by
  decide +kernel
/-- Without, two new arrays are needed: the first byte of the header was still written into the old one. -/
example : afterTight.1 = .ok ⟨3, 0, 40, 40⟩ ∧ afterTight.2.next = 4 := by decide +kernel
example : afterTight.2.array 1 = [1, 2, 3, 4] := by decide +kernel

/-- C103_append, C103_values, C103_header, C103_message: `roomy_wf` and `tight_wf` are all they ask for. -/
example : ∃ s' μ', (shareMsg 5).bytesAppendMem doubling roomy ram = (.ok s', μ') ∧
    Appended ram roomy ([4, 0, 2, 0, 0, 5] ++ List.replicate 31 0) μ' s' := by
  obtain ⟨s', μ', h₁, h₂, _⟩ := (C103_message doubling (shareMsg 5) roomy_wf).1 ([4, 0, 2, 0, 0, 5] ++ List.replicate 31 0) (by decide +kernel)
  exact ⟨s', μ', h₁, h₂⟩

/-- A message without payload: the header is written, then there is an error. -/
def hollow : Message Toy := { shareMsg 5 with sign2 := none }
example : (hollow.bytesAppendMem doubling roomy ram).1 = .err .noData := by decide +kernel
example : ((hollow.bytesAppendMem doubling roomy ram).2.array 0).take 12 = [7, 7, 7, 7, 7, 4, 0, 2, 0, 0, 7, 7] := by decide +kernel
example : hollow.marshalBinary = .err .noData := by decide +kernel
/-- A header that cannot be written. -/
example : (⟨4, 0, 0⟩ : Header).bytesAppendMem doubling roomy ram = (.err .zeroFrom, ram) :=
  ((C103_header doubling ⟨4, 0, 0⟩ roomy_wf).2.1 .zeroFrom (by decide +kernel)).1

/-- C103_others: a slice of the cells before the end, and one of the other array. -/
theorem share_appended : Appended ram roomy (Sign2.marshalBinary ⟨5⟩) (Sign2.bytesAppendMem doubling ⟨5⟩ roomy ram).2
    (Sign2.bytesAppendMem doubling ⟨5⟩ roomy ram).1 := sign2_appended doubling ⟨5⟩ roomy_wf
example : (Sign2.bytesAppendMem doubling ⟨5⟩ roomy ram).2.read ⟨0, 0, 5, 50⟩ = List.replicate 5 7 :=
  (C103_others share_appended ⟨by decide, by decide, by decide⟩ (Or.inr (Or.inl (by decide)))).2.trans (by decide)
example : (Sign2.bytesAppendMem doubling ⟨5⟩ roomy ram).2.read tight = [1, 2, 3] :=
  (C103_others share_appended tight_wf (Or.inl (by decide))).2.trans (by decide)

/-- C103_overwritten: a second share appended to the same slice. -/
example : ((Sign2.bytesAppendMem doubling ⟨6⟩ roomy (Sign2.bytesAppendMem doubling ⟨5⟩ roomy ram).2).2.read
    (Sign2.bytesAppendMem doubling ⟨5⟩ roomy ram).1) = ram.read roomy ++ Sign2.marshalBinary ⟨6⟩ :=
  (C103_overwritten share_appended (sign2_appended doubling ⟨6⟩ (share_appended.keeps.wf roomy_wf)) roomy_wf (by decide +kernel)
    (by decide +kernel)).2

/-- C104: marshalling the message allocates once. -/
example : ((shareMsg 5).marshalBinaryMem doubling ram).1 = .ok ⟨2, 0, 37, 37⟩ ∧ ((shareMsg 5).marshalBinaryMem doubling ram).2.next = 3 := by
  decide +kernel
example : (hollow.marshalBinaryMem doubling ram).1 = .err .noData := by decide +kernel
example : ((⟨4, 0, 0⟩ : Header).marshalBinaryMem doubling ram).1 = .err .zeroFrom := by decide +kernel
/-- C104_challenge. -/
example : (computeChallengeMem sumSha doubling (Toy.of 5) (Toy.of 21) tight ram).1 = computeChallenge sumSha (Toy.of 5) (Toy.of 21) [1, 2, 3] :=
  (C104_challenge doubling sumSha (Toy.of 5) (Toy.of 21) tight ram tight_wf).1

/-- C105: the list of a caller. -/
def lists : Mem ID := ⟨fun _ => [9, 3, 1, 2, 8], 1⟩
def callers : Slice := ⟨0, 1, 3, 4⟩
theorem callers_wf : lists.Wf callers := ⟨by decide, by decide, by decide⟩
example : (IDSlice.newMem callers lists).1 = ⟨1, 0, 3, 3⟩ ∧ (IDSlice.newMem callers lists).2.array 1 = [1, 2, 3] ∧
    (IDSlice.newMem callers lists).2.array 0 = [9, 3, 1, 2, 8] := by decide +kernel
example : Exact lists [3, 1, 2] (IDSlice.copyMem callers lists).2 (IDSlice.copyMem callers lists).1 := C105_copy lists callers callers_wf
example : (IDSlice.newMem callers lists).2.read callers = [3, 1, 2] := (C105_new lists callers callers_wf).2

/-- C106: two signers; the buffer is allocated once, and grows when its capacity is made smaller. -/
def rhoParty (d e : Nat) : Sign.Signer Toy := { pub := 0, Di := some (Toy.of d), Ei := some (Toy.of e) }
def rhoRound : Sign.Round Toy :=
  { r1 with partyIDs := [1, 2], selfID := 2, message := [4], parties := [(1, rhoParty 2 3), (2, rhoParty 5 8)] }
theorem rhoRound_ok : Sign.computeRhos sumSha rhoRound ≠ .panic := by
  intro h
  have : (match Sign.computeRhos sumSha rhoRound with | .panic => false | _ => true) = true := by decide +kernel
  rw [h] at this
  cases this
example : (Sign.computeRhosMem sumSha doubling rhoRound ram).2.next = 3 := C106_once doubling sumSha rhoRound ram (by decide) rhoRound_ok
example : (Sign.computeRhosMem sumSha doubling rhoRound ram).2.next = 3 := by decide +kernel
example : Sign.sizeBuffer 992 = 65550 ∧ Sign.sizeBuffer 993 = 80 := by decide +kernel

/-- C107: a queue with messages of two types; the first round's are moved out. -/
def mailbox : Mem (Option (Message Toy)) :=
  ⟨fun _ => [none, some (shareMsg 5), some (Message.newSign1 3 (Toy.of 2) (Toy.of 3)), some (shareMsg 6), none], 1⟩
def letters : List (Message Toy) := [shareMsg 5, Message.newSign1 3 (Toy.of 2) (Toy.of 3), shareMsg 6]
def inbox : Slice := ⟨0, 1, 3, 4⟩
theorem inbox_wf : mailbox.Wf inbox := ⟨by decide, by decide, by decide⟩
theorem inbox_read : mailbox.read inbox = letters.map some := by decide +kernel
example : ∃ κ', State.dequeueMem doubling MsgType.sign1 [] inbox mailbox =
    (.ok ((State.dequeueLoop MsgType.sign1 letters [] []).1, ⟨0, 1, 2, 4⟩), κ') ∧ κ'.read ⟨0, 1, 2, 4⟩ = [some (shareMsg 5), some (shareMsg 6)] := by
  obtain ⟨κ', h₁, h₂, _⟩ := C107_dequeue doubling MsgType.sign1 inbox [] letters inbox_wf inbox_read
  exact ⟨κ', h₁, h₂⟩
/-- The message at index 1 was overwritten by the one at index 2, which is still there a second time. -/
example : ((State.dequeueMem doubling MsgType.sign1 [] inbox mailbox).2.array 0)[3]? = some (some (shareMsg 6)) :=
  C107_stays doubling MsgType.sign1 inbox [] letters inbox_wf inbox_read 2 (shareMsg 6) rfl (by decide +kernel)
/-- When the queue is emptied, all are still there. -/
example : ((State.dequeueMem doubling MsgType.sign2 [] inbox mailbox).2.array 0)[2]? = some (some (Message.newSign1 3 (Toy.of 2) (Toy.of 3))) :=
  C107_stays doubling MsgType.sign2 inbox [] letters inbox_wf inbox_read 1 _ rfl (by decide +kernel)
example : (State.enqueueMem doubling inbox (shareMsg 8) mailbox).2.read (State.enqueueMem doubling inbox (shareMsg 8) mailbox).1 =
    (letters ++ [shareMsg 8]).map some := (C107_enqueue doubling inbox letters (shareMsg 8) inbox_wf inbox_read).2

/-- `C106_capacity`, `C106_capacity_wraps`: the last number of signers that fits, and the first that does not. -/
example := And.intro (C106_capacity 992 (by decide)) (C106_capacity_wraps 993 (by decide))

end Verif.Cases
