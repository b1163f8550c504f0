import Verif.Proofs.Instances
import Verif.Spec.Signer

/-! A concrete environment that meets all assumed laws, for examples. -/

namespace Dkim

open Spec

/-- A hash function and toy signatures: the checksum of the data, repeated. -/
def sumByte (m : Bytes) : UInt8 := m.foldl (fun a b => a * 3 + b) 7

/-- Keys without content; a signature repeats the checksum of the data. -/
def testCrypto : Crypto where
  RsaSk := Unit
  EdSk := Unit
  RsaPk := Nat
  EdPk := Unit
  rsaSkBits _ := 1024
  rsaPkBits n := n
  rsaSign _ _ m := some (List.replicate 128 (sumByte m))
  rsaVerify _ _ m s := s = List.replicate 128 (sumByte m)
  rsaFromSpki d := if d = [1] then some 1024 else none
  rsaFromPkcs1 d := if d = [2] then some 1017 else if d = [3] then some 512 else none
  edSign _ m := List.replicate 64 (sumByte m)
  edVerify _ m s := s = List.replicate 64 (sumByte m)
  edFromBytes d := if d = [4] then some () else none
  edFromSpki _ := none

/-- Insertion into a sorted list. -/
def insertInto (cmp : Comparator) (a : Str) : List Str → List Str
  | [] => [a]
  | b :: l => if cmp a b = .gt then b :: insertInto cmp a l else a :: b :: l

/-- A stable sort. -/
def insertionSort (cmp : Comparator) (l : List Str) : List Str := l.foldr (insertInto cmp) []

theorem insertInto_perm (cmp : Comparator) (a : Str) (l : List Str) : (insertInto cmp a l).Perm (a :: l) := by
  induction l with
  | nil => exact .refl _
  | cons b l ih =>
    rw [insertInto]
    split
    · exact (List.Perm.cons b ih).trans (.swap a b l)
    · exact .refl _

theorem insertionSort_perm (cmp : Comparator) (l : List Str) : (insertionSort cmp l).Perm l := by
  induction l with
  | nil => exact .refl _
  | cons a l ih => exact (insertInto_perm cmp a _).trans (.cons a ih)

def testEnv : Env where
  idna := asciiIdna
  crypto := testCrypto
  hash _ b := [sumByte b, UInt8.ofNat b.length]
  sortBy := insertionSort
  keySet l := l.eraseDups
  lookupOrder l := l
  lossy b := b.map fun b => Char.ofNat b.toNat
  usizeMax := 2 ^ 64 - 1
  pre := false

theorem testEnv_sort : SortLaw testEnv.sortBy := insertionSort_perm

theorem nodup_eraseDups {α : Type} [BEq α] [LawfulBEq α] (l : List α) : l.eraseDups.Nodup := by
  generalize hn : l.length = n
  induction n using Nat.strongRecOn generalizing l with
  | ind n ih =>
    cases l with
    | nil => simp
    | cons a l =>
      rw [List.eraseDups_cons, List.nodup_cons]
      have hl : (l.filter fun b => !b == a).length < n := by
        have := List.length_filter_le (fun b => !b == a) l
        simp only [List.length_cons] at hn
        omega
      refine ⟨?_, ih _ hl _ rfl⟩
      rw [List.mem_eraseDups]
      simp

theorem testEnv_set : SetLaw testEnv.keySet := fun l => by
  refine ⟨nodup_eraseDups _, fun x => ?_⟩
  exact List.mem_eraseDups

theorem testEnv_order : OrderLaw testEnv.lookupOrder := fun l => List.Perm.refl l

theorem testEnv_idna : IdnaLaw testEnv.idna := asciiIdna_idnaLaw

theorem testEnv_sign : SignLaw testEnv.crypto where
  rsa_length _ k m s h := by
    simp only [testEnv, testCrypto, Option.some.injEq] at h ⊢
    subst h
    rfl
  rsa_nonempty _ k m s h := by
    simp only [testEnv, testCrypto, Option.some.injEq] at h
    subst h
    simp
  ed_length k m := List.length_replicate ..

/-- A request that uses many features. -/
def testRequest : SignRequest testEnv :=
  { SignRequest.new c!"Example.com" c!"sel" .ed25519Sha256 (.ed25519 ()) with
    identity := some ⟨some c!"a.b=c", c!"mail.example.com"⟩
    bodyLength := .messageContent
    timestamp := .exact 1000
    copyHeaders := true
    extTags := [(c!"r", c!"y z")] }

def testHeaders : List Field :=
  [⟨c!"Received", b!" x"⟩, ⟨c!"from", b!" me"⟩, ⟨c!"Subject", b!" a;\r\n b"⟩, ⟨c!"X", b!" y"⟩]

end Dkim
