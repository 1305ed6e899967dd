import Verif.Spec.KeyChain
import Verif.Lemmas.KeyHistory
/-
A history that meets the hypotheses of C64 to C66.
-/
namespace PyNDN
namespace KeyChain
open PSync (dictGet dictSet dictDel dictGet_none dictGet_some)
open Spec
open Spec.KeyChain

theorem disciplined_nil {strict : Bool} {P : Params} : Disciplined strict P [] := fun a op b e => by
  cases a <;> nomatch e

theorem disciplined_add {strict : Bool} {P : Params} {ops : List Op} {op : Op} (h : Disciplined strict P ops) (hp : Proper strict P (run P ops) op) :
    Disciplined strict P (ops ++ [op]) := by
  intro a x b e
  rcases List.eq_nil_or_concat b with rfl | ⟨b', y, rfl⟩
  · have h1 := List.append_inj_left' e rfl
    have h2 := List.append_inj_right' e rfl
    subst h1
    cases h2
    exact hp
  · rw [List.concat_eq_append] at e
    have e' : ops ++ [op] = (a ++ x :: b') ++ [y] := by rw [e]; simp
    exact h a x b' (List.append_inj_left' e' rfl)

/-- Cryptography for the examples. -/
def exP : Params where
  sha256 b := b.take 32
  publicKey p := List.replicate (p + 1) 1
  keyType _ := some .rsa
  sign p _ buffer := List.replicate (p + 1) 7 ++ buffer
  verify buffer signature bits := .ok (decide (signature = some (List.replicate bits.length 7 ++ buffer)))
  wrap p _ := List.replicate p 1
  unwrap b _ := some b.length

theorem exSound : Sound exP where
  type _ := .inl rfl
  nonempty _ := fun h => nomatch h
  signature _ _ _ := fun h => nomatch h
  verify p random buffer := by
    show Except.ok (decide (some (List.replicate (p + 1) (7 : UInt8) ++ buffer) = some (List.replicate (List.replicate (p + 1) (1 : UInt8)).length 7 ++ buffer))) = _
    rw [List.length_replicate, decide_eq_true rfl]

def exA : Name := [Component.generic [65]]
def exB : Name := [Component.generic [66]]
def exK (n : Nat) : Component := Component.generic [107, n.toUInt8]
def exGen (n : Nat) : Gen := { id := .user (exK n), private_ := n, now := 1000 }

def exOps : List Op := [.createIdentity exA (exGen 1), .createKey 0 (exGen 2), .createIdentity exB (exGen 3)]

/-- Its first key. -/
def exKey : Name := constructKeyName exA (exK 1)

theorem exLiveA : LiveId (run exP exOps) exA 0 := by unfold LiveId; decide +kernel
theorem exLiveB : LiveId (run exP exOps) exB 1 := by unfold LiveId; decide +kernel

/-- The identity object with the number 0 and the key object with the number 0. -/
theorem exLiveKey : LiveKey (run exP exOps) exKey 0 :=
  ⟨exA, 0, _, exLiveA, (by decide +kernel : (run exP exOps).ids[0]? = some ((run exP exOps).ids[0]?.getD { name := [] })), by decide +kernel⟩

theorem exDisciplined : Disciplined true exP exOps := by
  refine disciplined_add (ops := [.createIdentity exA (exGen 1), .createKey 0 (exGen 2)]) (disciplined_add (ops := [.createIdentity exA (exGen 1)]) (disciplined_add (ops := []) disciplined_nil ?_) ⟨exA, ?_, ?_⟩) ?_
  · exact fun h => nomatch h
  · unfold LiveId; decide +kernel
  · exact fun h => nomatch h
  · exact fun h => nomatch h

end KeyChain
end PyNDN
