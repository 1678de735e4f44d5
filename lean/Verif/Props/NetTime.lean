import Verif.Lemmas.NetTime
import Verif.Props.Demo

/-!
C76: key generation and signing among honest parties when any of them may time out at any moment.
-/

namespace Verif.Props

open Verif State Polynomial

variable {G : Type} [RGroup G] {sha : Sha512} {ids : IDSlice} {t : UInt16} {timeout now : ID → Nat}

theorem allowed_of_sim {R : Type} {coins : ID → Coins} {N N' : Spec.Net G R} {i : ID} {op : Op G} (h1 : N.sent = N'.sent) (h2 : N.state i = N'.state i)
    (h : Spec.Allowed coins N i op) : Spec.Allowed coins N' i op := by
  unfold Spec.Allowed at h ⊢
  cases op with
  | handle m => simpa [h1] using h
  | processAll o c => simpa [h2] using h
  | advance _ => trivial
  | fire => trivial
  | callback => simpa [h2] using h

/-- Among honest parties that may time out at any moment, messages being delivered in any order, any number of times or never: a
time-out is the only error there is, nobody is ever blamed, whoever finishes without error has the right result, and no call crashes
except a time-out before the first `ProcessAll`. -/
theorem C76_keygen {init : ID → State G (Keygen.Round G)} (hs : Spec.KeygenSetup sha ids t timeout now init) (coins : ID → Coins)
    (N : Spec.Net G (Keygen.Round G)) (hp : Spec.PathT (Keygen.impl sha) ids coins (Spec.Net.start init) N) (i : ID) (hi : i ∈ ids) :
    (Spec.TimedOut (N.state i) ∨ (N.state i).err = none) ∧
    ((N.state i).done = true → (N.state i).err = none → Spec.KeygenResult ids t (Spec.jointPoly ids t.toNat coins) i (N.state i).round) ∧
    ∀ op, Spec.AllowedT coins N i op → op ≠ .callback ∨ (N.state i).roundNumber ≠ 0 →
      ∃ s ret, State.step (Keygen.impl sha) (N.state i) op = some (s, ret) := by
  obtain ⟨N', h1, h2, h3⟩ := untimed hp fun N' h => (C35_honest_keygen hs coins N' h).1
  obtain ⟨a1, a2, _, _, a3⟩ := C35_honest_keygen hs coins N' h1
  cases h3 i hi with
  | same h =>
    rw [h]
    refine ⟨Or.inr (a1 i hi), fun hd _ => a3 i hi hd, ?_⟩
    intro op ha hc
    by_cases hop : op = .callback
    · subst hop
      obtain ⟨r₀, hr₀, H, hN⟩ := netInv hs coins
      have hh := (hN N' h1).hist i hi
      have hinit : newBaseState (Keygen.impl sha) (r₀ i) (timeout i) (now i) = init i := by
        obtain ⟨r₁, h5, h6⟩ := newKeygenState_ok.mp (hs.start i hi)
        rw [(hr₀ i hi).new] at h5
        cases h5
        exact h6.symm
      rw [hinit] at hh
      have := C33_keygen_timeout_safe_partial i ids t _ _ _ (hs.start i hi) hs.nodup hh (hc.resolve_left fun h => h rfl)
      obtain ⟨x, hx⟩ := Option.ne_none_iff_exists'.mp this
      exact ⟨x.1, x.2, hx⟩
    · exact a2 i hi op (allowed_of_sim h2 h (ha.resolve_left hop))
  | over hd h =>
    obtain ⟨tm, h⟩ := h
    rw [h]
    exact ⟨Or.inr (a1 i hi), fun _ _ => a3 i hi hd, fun op _ _ => step_done_some (s := { N'.state i with timer := tm }) hd op⟩
  | out h =>
    exact ⟨Or.inl h, fun _ he => absurd he (by rw [h.2]; simp), fun op _ _ => step_done_some h.1 op⟩

/-- The same for signing; here no call crashes at all. -/
theorem C76_sign {F : Scalar[X]} {message : Bytes} {secret : ID → SecretShare G} {pub : ID → Public G} {init : ID → State G (Sign.Round G)}
    (hs : Spec.SignSetup sha ids t F message secret pub timeout now init) (coins : ID → Coins)
    (hcoins : ∀ i ∈ ids, coins i 0 ≠ 0 ∧ coins i 1 ≠ 0) :
    ∃ sig : Signature G, PublicKey.verify sha (F.eval 0 • (base : G)) message sig = .ok true ∧
      ∀ N, Spec.PathT (Sign.impl sha) ids coins (Spec.Net.start init) N → ∀ i ∈ ids,
        (Spec.TimedOut (N.state i) ∨ (N.state i).err = none) ∧
        ((N.state i).done = true → (N.state i).err = none → (N.state i).round.output.signature = some sig) ∧
        ∀ op, Spec.AllowedT coins N i op → ∃ s ret, State.step (Sign.impl sha) (N.state i) op = some (s, ret) := by
  obtain ⟨sig, hv, hsig⟩ := C43_honest_sign hs coins hcoins
  refine ⟨sig, hv, ?_⟩
  intro N hp i hi
  obtain ⟨N', h1, h2, h3⟩ := untimed hp fun N' h => (hsig N' h).1
  obtain ⟨a1, a2, a3, _⟩ := hsig N' h1
  cases h3 i hi with
  | same h =>
    rw [h]
    refine ⟨Or.inr (a1 i hi), fun hd _ => a3 i hi hd, ?_⟩
    intro op ha
    by_cases hop : op = .callback
    · subst hop
      obtain ⟨r₀, hr₀, H, hN⟩ := signNetInv hs coins hcoins
      have hh := (hN N' h1).hist i hi
      have hinit : newBaseState (Sign.impl sha) (r₀ i) (timeout i) (now i) = init i := by
        obtain ⟨r₁, h5, h6⟩ := newSignState_ok.mp (hs.start i hi)
        rw [(hr₀ i hi).new] at h5
        cases h5
        exact h6.symm
      rw [hinit] at hh
      have := C33_sign_timeout_safe _ _ ids message _ _ _ (hs.start i hi) hh
      obtain ⟨x, hx⟩ := Option.ne_none_iff_exists'.mp this
      exact ⟨x.1, x.2, hx⟩
    · exact a2 i hi op (allowed_of_sim h2 h (ha.resolve_left hop))
  | over hd h =>
    obtain ⟨tm, h⟩ := h
    rw [h]
    exact ⟨Or.inr (a1 i hi), fun _ _ => a3 i hi hd, fun op _ => step_done_some (s := { N'.state i with timer := tm }) hd op⟩
  | out h =>
    exact ⟨Or.inl h, fun _ he => absurd he (by rw [h.2]; simp), fun op _ => step_done_some h.1 op⟩

namespace Demo

/-- The event with the coins of the party. -/
def withCoins (c : Coins) : Op Toy → Op Toy
  | .processAll ord _ => .processAll ord c
  | op => op

/-- Whether only messages that were sent are delivered. -/
def delivers (sent : List (Message Toy)) : Op Toy → Bool
  | .handle m => decide (m ∈ sent)
  | _ => true

/-- Runs events of a network; an event that is not allowed ends the run. -/
def netRun {R : Type} (impl : RoundImpl Toy R) (ids : List ID) (coins : ID → Coins) : Spec.Net Toy R → List (ID × Op Toy) → Option (Spec.Net Toy R)
  | N, [] => some N
  | N, (i, op) :: rest =>
    if i ∈ ids ∧ delivers N.sent op = true then
      match step impl (N.state i) (withCoins (coins i) op) with
      | none => none
      | some (s, ret) => netRun impl ids coins (N.after i (withCoins (coins i) op) ret s) rest
    else none

theorem netRun_path {R : Type} {impl : RoundImpl Toy R} {ids : List ID} {coins : ID → Coins} {N₀ N N' : Spec.Net Toy R} {l : List (ID × Op Toy)}
    (hp : Spec.PathT impl ids coins N₀ N) (h : netRun impl ids coins N l = some N') : Spec.PathT impl ids coins N₀ N' := by
  induction l generalizing N with
  | nil => cases h; exact hp
  | cons x rest ih =>
    obtain ⟨i, op⟩ := x
    unfold netRun at h
    split at h
    · rename_i hc
      split at h
      · cases h
      · rename_i s ret hstep
        refine ih (hp.tail hc.1 ?_ hstep) h
        cases op with
        | handle m => exact Or.inr (show m ∈ N.sent from of_decide_eq_true hc.2)
        | processAll ord c => exact Or.inr fun _ => rfl
        | advance _ => exact Or.inr trivial
        | fire => exact Or.inr trivial
        | callback => exact Or.inl rfl
    · cases h

/-- Two parties. -/
theorem keygen_setup2 : Spec.KeygenSetup toySha [1, 2] 1 (fun _ => 10) (fun _ => 0) (session [1, 2] 1) where
  sorted := by decide
  nodup := by decide
  zero := by decide
  start := by
    intro i hi
    have hi : i ∈ [(1 : ID), 2] := hi
    fin_cases hi <;> exact session_ok (by decide) (by decide) (by decide +kernel)

/-- Parties 1 and 2 generate a key; the share for party 2 is lost, so party 2 times out while party 1 finishes. -/
theorem one_times_out : ∃ N, Spec.PathT (Keygen.impl toySha) [1, 2] (fun i => coins (if i = 1 then [5, 6, 7] else [7, 8, 9]))
    (Spec.Net.start (session [1, 2] 1)) N ∧ Spec.TimedOut (N.state 2) ∧ (N.state 1).done = true ∧ (N.state 1).err = none := by
  have h : ((netRun (Keygen.impl toySha) [1, 2] (fun i => coins (if i = 1 then [5, 6, 7] else [7, 8, 9])) (Spec.Net.start (session [1, 2] 1))
      [(1, .processAll .insertion (coins [])), (2, .processAll .insertion (coins [])),
       (1, .handle (Message.newKeyGen1 2 ⟨0, 9⟩ [Toy.of 7, Toy.of 8])), (2, .handle (Message.newKeyGen1 1 ⟨0, 7⟩ [Toy.of 5, Toy.of 6])),
       (1, .processAll .insertion (coins [])), (2, .processAll .insertion (coins [])), (1, .handle (Message.newKeyGen2 2 1 15)),
       (1, .processAll .insertion (coins [])), (2, .advance 10), (2, .fire), (2, .callback)]).map fun N =>
      decide ((N.state 2).done = true ∧ (N.state 2).err = some ⟨0, (N.state 2).roundNumber, .timeout⟩ ∧ (N.state 1).done = true ∧ (N.state 1).err = none)) =
      some true := by decide +kernel
  obtain ⟨N, h1, h2⟩ := Option.map_eq_some_iff.mp h
  simp only [decide_eq_true_eq] at h2
  exact ⟨N, netRun_path (.refl _) h1, ⟨h2.1, h2.2.1⟩, h2.2.2.1, h2.2.2.2⟩

end Demo

/-- One party can end with its share of a key while another ends with a time-out, although both are honest. -/
theorem C76_not_atomic : ∃ (coins : ID → Coins) (N : Spec.Net Toy (Keygen.Round Toy)),
    Spec.KeygenSetup toySha [1, 2] 1 (fun _ => 10) (fun _ => 0) (Demo.session [1, 2] 1) ∧
    Spec.PathT (Keygen.impl toySha) [1, 2] coins (Spec.Net.start (Demo.session [1, 2] 1)) N ∧
    Spec.TimedOut (N.state 2) ∧ Spec.KeygenResult [1, 2] 1 (Spec.jointPoly [1, 2] 1 coins) 1 (N.state 1).round := by
  obtain ⟨N, h1, h2, h3, h4⟩ := Demo.one_times_out
  exact ⟨_, N, Demo.keygen_setup2, h1, h2, (C76_keygen Demo.keygen_setup2 _ N h1 1 (by decide)).2.1 h3 h4⟩

end Verif.Props
