import Verif.Spec.Written

/-!
# Specification: how the lines of the produced header are filled
-/

namespace Dkim.Spec

/-- A piece of text that stays in one line. -/
structure Word where
  /-- A space is put before the text if it does not begin a line. -/
  space : Bool
  text : Str
  /-- For how many characters there must be room in the line (without the space). -/
  need : Nat

/-- The space before a word. -/
def Word.lead (w : Word) : Str := if w.space then [' '] else []

/-- Words put into lines one after the other, beginning in column `col`: a word goes into the
current line if there is room for it, else into a new line, after the indentation. -/
def flow (width : Nat) (indent : Str) : Nat → List Word → Str
  | _, [] => []
  | col, w :: ws =>
    if col + w.lead.length + w.need ≤ width then
      w.lead ++ w.text ++ flow width indent (col + w.lead.length + w.text.length) ws
    else c!"\r\n" ++ indent ++ w.text ++ flow width indent (indent.length + w.text.length) ws

/-- A text that can be broken everywhere. -/
def loose (s : Str) : List Word := s.map fun c => ⟨false, [c], 1⟩

/-- Text that is put behind the last word, also if there is no room for it. -/
def attach (e : Str) : List Word → List Word
  | [] => []
  | [w] => [{ w with text := w.text ++ e }]
  | w :: ws => w :: attach e ws

/-- Names separated by colons, then `e`. A line can be broken after each colon. -/
def nameWords (e : Str) : Bool → List Str → List Word
  | _, [] => []
  | sp, [n] => [⟨sp, n ++ e, (n ++ e).length⟩]
  | sp, n :: ns => ⟨sp, n ++ [':'], n.length + 1⟩ :: nameWords e false ns

/-- Copied header fields behind the first one: a bar, the name with colon, and the encoded
value, which can be broken everywhere. -/
inductive CopiedWords (ascii : Bool) : List (Str × Bytes) → List Word → Prop
  | nil : CopiedWords ascii [] []
  | cons (n : Str) (v : Bytes) (t : Str) (rest : List (Str × Bytes)) (ws : List Word) :
      QpWritten (fun c => dkimSafe c ∧ c ≠ '|' ∧ (ascii = true → c.toNat < 128)) v t →
      CopiedWords ascii rest ws →
      CopiedWords ascii ((n, v) :: rest) (⟨false, ['|'], 1⟩ :: ⟨false, n ++ [':'], n.length + 1⟩ :: loose t ++ ws)

/-- The words of a tag, at the end of which is `e` (a semicolon or nothing). There must be room
for at least one character of the values of `b` and `bh` behind the name. For the semicolon behind
`b`, `bh` and `z` there need not be room. -/
inductive TagWords (ix : Idna) (ascii : Bool) (sig : DkimSignature) (e : Str) : Str → List Word → Prop
  | whole (n v : Str) : n ∉ [c!"b", c!"bh", c!"h", c!"z"] → WrittenTag ix ascii sig n v →
      TagWords ix ascii sig e n [⟨true, n ++ '=' :: v ++ e, (n ++ '=' :: v ++ e).length⟩]
  | b : TagWords ix ascii sig e c!"b" (attach e (⟨true, c!"b=", 3⟩ :: loose (base64 sig.signatureData)))
  | bh : TagWords ix ascii sig e c!"bh" (attach e (⟨true, c!"bh=", 4⟩ :: loose (base64 sig.bodyHash)))
  | h (n : Str) (ns : List Str) : sig.signedHeaders = n :: ns →
      TagWords ix ascii sig e c!"h" (nameWords e true ((c!"h=" ++ n) :: ns))
  | z (n : Str) (v : Bytes) (t : Str) (rest : List (Str × Bytes)) (ws : List Word) :
      sig.copiedHeaders = (n, v) :: rest →
      QpWritten (fun c => dkimSafe c ∧ c ≠ '|' ∧ (ascii = true → c.toNat < 128)) v t →
      CopiedWords ascii rest ws →
      TagWords ix ascii sig e c!"z" (attach e (⟨true, c!"z=" ++ n ++ [':'], n.length + 3⟩ :: loose t ++ ws))

/-- The words of tags with the given names, which are separated by semicolons. -/
inductive ListWords (ix : Idna) (ascii : Bool) (sig : DkimSignature) : List Str → List Word → Prop
  | last (n : Str) (ws : List Word) : TagWords ix ascii sig [] n ws → ListWords ix ascii sig [n] ws
  | more (n : Str) (ws : List Word) (ns : List Str) (rest : List Word) : TagWords ix ascii sig [';'] n ws →
      ListWords ix ascii sig ns rest → ListWords ix ascii sig (n :: ns) (ws ++ rest)

end Dkim.Spec
