import Verif.Cases.Keygen
import Verif.Cases.Sign
import Verif.Props.Errors

/-!
For each theorem of `Props/Errors.lean` that has hypotheses, a concrete case that meets them; and some texts as they are printed.
-/

namespace Verif.Cases

open State Props Props.Demo Spec

/-- `C109_keygen_text`, `C109_keygen_text_determines`: the aborts of rounds 2 and 1. -/
example := C109_keygen_text [] 1 ids 1 10 0 _ session1 (by decide) (hist abort2 (by decide +kernel)) ⟨2, 2, .vssFailed⟩ (by decide +kernel)
example := C109_keygen_text [] 1 ids 1 10 0 _ session1 (by decide) (hist abort1 (by decide +kernel)) ⟨2, 1, .zkFailed⟩ (by decide +kernel)
example := C109_keygen_text_determines [] 1 1 ids ids 1 1 10 10 0 0 _ _ session1 session1 (by decide) (by decide) (hist abort2 (by decide +kernel))
  (hist abort2 (by decide +kernel)) ⟨2, 2, .vssFailed⟩ ⟨2, 2, .vssFailed⟩ (by decide +kernel) (by decide +kernel) rfl

/-- `C109_sign_text`, `C109_sign_text_determines`, `C109_sentinel_lost`: a wrong share, a commitment that is the identity, and a timeout. -/
example := C109_sign_text [] (skey 1) key ids [1, 2, 3] 10 0 _ new1 (by decide) b2 ⟨2, 2, .badSigShare⟩ (by decide +kernel)
example := C109_sign_text [] (skey 1) key ids [1, 2, 3] 10 0 _ new1 (by decide) b1 ⟨3, 1, .identityCommitment⟩ (by decide +kernel)
example := C109_sign_text [] (skey 1) key ids [1, 2, 3] 10 0 _ new1 (by decide) (shist stimeout (by decide +kernel)) ⟨0, 1, .timeout⟩ (by decide +kernel)
example := C109_sign_text_determines [] (skey 1) (skey 1) key key ids ids [1, 2, 3] [1, 2, 3] 10 10 0 0 _ _ new1 new1 (by decide) (by decide) b2 b2
  ⟨2, 2, .badSigShare⟩ ⟨2, 2, .badSigShare⟩ (by decide +kernel) (by decide +kernel) rfl
example := C109_sentinel_lost (skey 1) key ids [1, 2, 3] 10 0 _ new1 (by decide) b2 ⟨2, 2, .badSigShare⟩ (by decide +kernel)

/-- The text of the wrong share. -/
example : (⟨2, 2, .badSigShare⟩ : StateErr).value.text [] = ascii "party 2: round 2: signature share is invalid" := by decide +kernel

/-- `C109_refused_text`: party 1 is in round 0 and gets a message of party 9, who is no participant. -/
example := C109_refused_text [] SI (start r1) (handleMessage SI (start r1) (Message.newSign1 9 base base)).1 (Message.newSign1 9 base base) ⟨1, 9, some 0, .notAParty⟩ (Prod.ext rfl (by decide +kernel))

/-- Its text: the culprit 9 is called the round and round 0 the culprit. -/
example : (⟨1, 9, some 0, .notAParty⟩ : HandleErr).value.text [] = ascii "party 1, round 9, culprit 0: sender is not a party" := by decide +kernel

/-- `C109_invalid_message`: three bytes are no payload of any kind, and 32 bytes of 255 are no share. -/
example := ((C109_invalid_message (G := Toy) [1, 2, 3]).1 (.wrap (ascii "msg1: ") (.var .messagesInvalid)) (by decide +kernel)).mpr (by decide)
example := (C109_invalid_message (G := Toy) [1, 2, 3]).2.1 (.wrap (ascii "msg2: ") (.var .messagesInvalid)) (by decide +kernel)
example := (C109_invalid_message (G := Toy) [1, 2, 3]).2.2.1 (.wrap (ascii "msg1: ") (.var .messagesInvalid)) (by decide +kernel)
example := (C109_invalid_message (G := Toy) (List.replicate 32 255)).2.2.2 (.wrap (ascii "msg2.Zi: ") .library) (by decide +kernel)

/-- `C109_signature_error`: a signature of three bytes. -/
example := C109_signature_error (G := Toy) [1, 2, 3] (.wrap (ascii "sig: ") (.var .eddsaInvalid)) (by decide +kernel)

/-- `C109_header_text`: three bytes; a broadcast with a recipient; a share without one; another type; no sender. -/
example := C109_header_text [1, 2, 3] (.new (ascii "Header.UnmarshalBinary: data should be at least 5 bytes (got 3)")) (by decide +kernel) []
example := C109_header_text [1, 0, 1, 0, 2] (.new (ascii "Header.UnmarshalBinary: .To field must be 0 to indicate broadcast")) (by decide +kernel) []
example := C109_header_text [2, 0, 1, 0, 0] (.new (ascii "Header.UnmarshalBinary: MessageTypeKeyGen2 requires a sender (.To field)")) (by decide +kernel) []
example := C109_header_text [9, 0, 1, 0, 0] (.new (ascii "Header.UnmarshalBinary: invalid message type")) (by decide +kernel) []
example := C109_header_text [2, 0, 0, 0, 1, 7] (.new (ascii "Header.UnmarshalBinary: message must include a non 0 From value")) (by decide +kernel) []

/-- `C109_commitments_text`: one byte; three bytes; degree 1 and no coefficients; degree 0 and a coefficient that is no element. -/
example := C109_commitments_text (G := Toy) [1] (.new (ascii "party.FromBytes: b is not long enough to hold an ID")) (by decide +kernel) []
example := C109_commitments_text (G := Toy) [0, 1, 3] (.new (ascii "length of data is wrong")) (by decide +kernel) []
example := C109_commitments_text (G := Toy) [0, 1] (.new (ascii "wrong number of coefficients embedded")) (by decide +kernel) []
example := C109_commitments_text (G := Toy) ([0, 0] ++ List.replicate 32 255) (.var .encoding) (by decide +kernel) []

/-- `C109_message_hides`: a header of another type; a message of type 1 without data. -/
example := (C109_message_hides (Message.fresh : Message Toy) [7, 0, 1, 0, 0] .messagesInvalid
  (.new (ascii "Header.UnmarshalBinary: invalid message type"))).1 (by decide +kernel)
example := (C109_message_hides ({ header := ⟨1, 2, 0⟩ } : Message Toy) [] .messagesInvalid (.new (ascii "message does not contain any data"))).2 (by decide +kernel)

/-- The error of a payload of the wrong length is not reported at all. -/
example : Message.unmarshalBinaryE (Message.fresh : Message Toy) [3, 0, 1, 0, 0, 9] = .ok { header := ⟨3, 1, 0⟩ } := by decide +kernel

/-- `C109_routine`: bytes that are no message. -/
example := (C109_routine SI .insertion (coins []) [[1]] (start r1)).2.2 (start r1)
  (.wrap (ascii "failed to unmarshal message: ") (.new (ascii "Header.UnmarshalBinary: data should be at least 5 bytes (got 1)"))) rfl

end Verif.Cases
