import Verif.Proofs.Written
import Verif.Props.OutputText

/-!
# Property C92: the tag values that the signer writes; the exact text for C19
-/

namespace Dkim

open Spec

variable {E : Env}

/-- C19, exactly: of all texts, the encoder returns the one in which every character that
may be written is written, and every other byte is given in hexadecimal. -/
theorem C19_qp_exact (bytes : Bytes) (special : Option Char) (asciiOnly : Bool) (text : Str) :
    QpWritten (fun c => dkimSafe c ∧ special ≠ some c ∧ (asciiOnly = true → c.toNat < 128)) bytes text ↔
      text = qpEncode bytes special asciiOnly :=
  ⟨fun h => qpWritten_unique h (qpEncode_written bytes special asciiOnly),
    fun h => h ▸ qpEncode_written bytes special asciiOnly⟩

/-- Non-vacuity: a character, a character that is not written, and a byte that belongs to
none. -/
example : qpEncode (utf8 c!"é=" ++ [0xC3]) (some '|') false = c!"é=3D=C3" ∧
    qpEncode (utf8 c!"é=" ++ [0xC3]) (some '|') true = c!"=C3=A9=3D=C3" := by decide

/-- C92: the produced header value is a tag list, of which every tag has the value that is to
be written for the signature of the output. -/
theorem C92_values (law : IdnaLaw E.idna) (hs : SortLaw E.sortBy) (hset : SetLaw E.keySet)
    (headers : List Field) (requests : List (SignRequest E)) (hh : TypedHeaders headers)
    (ht : ∀ r ∈ requests, TypedRequest r) (chunks : List Bytes) (clock : Nat → Nat)
    (out : List (Except SigningError SigningOutput)) (h : Signed headers requests chunks clock out)
    (hlen : ∀ k, (codeBody k chunks.flatten).length < 2 ^ 64) (i : Nat) (r : SignRequest E)
    (hr : requests[i]? = some r) (o : SigningOutput) (ho : out[i]? = some (.ok o)) :
    ∃ tags : List (Str × Str), (∀ tags', ListText tags' o.headerValue ↔ tags' = tags) ∧
      (tags.map (·.1)).Perm (requestedTags r) ∧
      ∀ t ∈ tags, WrittenTag E.idna r.format.asciiOnly o.signature t.1 t.2 := by
  obtain ⟨h1, h2, h3, part, sig, bText, tags, h4, h5, h6, h7, h8, h9, h10, h11⟩ :=
    output_tags law hs hset hh ht h hlen hr ho
  refine ⟨tags, fun tags' => ⟨fun h => listText_unique h h10, fun h => h ▸ h10⟩, ?_, ?_⟩
  · rw [h8, ← requestedTags_eq h1 h2 hh h3 part (clock i)]
    exact computeTagNames_perm hs _ _
  · intro t hm
    rw [h5]
    exact origin_written (sigData_fine h1 h2 hh h3 part (clock i)) (GoodIndent.fws h2.indent) h6 (h11.2 t hm)

/-- C92: a tag has only one such value, up to folding whitespace, and exactly one in the
tags that are not folded. -/
theorem C92_determined (ix : Idna) (ascii : Bool) (sig : DkimSignature) (hext : (sig.extTags.map (·.1)).Nodup)
    (n v w : Str) (hv : WrittenTag ix ascii sig n v) (hw : WrittenTag ix ascii sig n w) :
    withoutFws v = withoutFws w ∧ (n ∉ [c!"b", c!"bh", c!"h", c!"z"] → v = w) := by
  have same : v = w → withoutFws v = withoutFws w ∧ (n ∉ [c!"b", c!"bh", c!"h", c!"z"] → v = w) :=
    fun e => ⟨by rw [e], fun _ => e⟩
  have folded : n ∈ [c!"b", c!"bh", c!"h", c!"z"] → withoutFws v = withoutFws w →
      withoutFws v = withoutFws w ∧ (n ∉ [c!"b", c!"bh", c!"h", c!"z"] → v = w) :=
    fun hn e => ⟨e, fun h => absurd hn h⟩
  generalize e : n = m at hw
  cases hv <;> cases hw <;> first
    | exact absurd e (by decide)
    | exact same rfl
    | (rename_i h1 h2; exact folded (by simp) (h1.trans h2.symm))
    | (rename_i h1 h2; exact folded (by simp) (copiedWritten_unique h1 h2))
    | (rename_i h1 _ h2; exact same (by rw [Option.some.inj (h1.symm.trans h2)]))
    | (rename_i h1 g1 _ _ h2 g2
       obtain rfl := Option.some.inj (h1.symm.trans h2)
       exact same (by rw [qpWritten_unique g1 g2]))
    | (subst e; clear same folded; exfalso; simp_all; done)
    | (subst e; rename_i h1 _ h2; exact same (nodup_fst_unique hext h1 h2))

/-- C92, for requests with the default settings: domain and selector are written in Unicode
form, whatever the form in which they were given. -/
theorem C92_default_unicode (law : IdnaLaw E.idna) (hs : SortLaw E.sortBy) (hset : SetLaw E.keySet)
    (headers : List Field) (hh : TypedHeaders headers) (domain selector : Str)
    (alg : SigAlg) (key : SigningKey E.crypto) (ht : TypedRequest (SignRequest.new domain selector alg key))
    (chunks : List Bytes) (clock : Nat → Nat)
    (hlen : ∀ k, (codeBody k chunks.flatten).length < 2 ^ 64) (o : SigningOutput)
    (h : Signed headers [SignRequest.new domain selector alg key] chunks clock [.ok o]) :
    ∃ tags : List (Str × Str), (∀ tags', ListText tags' o.headerValue ↔ tags' = tags) ∧
      ∃ d s, (c!"d", d) ∈ tags ∧ (c!"s", s) ∈ tags ∧
        lower d = lower (E.idna.toUnicode domain).1 ∧ lower s = lower (E.idna.toUnicode selector).1 := by
  have htr : ∀ r ∈ [SignRequest.new domain selector alg key], TypedRequest r := by
    intro r hr
    rw [List.mem_singleton.1 hr]
    exact ht
  obtain ⟨tags, h1, h2, h3⟩ := C92_values law hs hset headers _ hh htr chunks clock _ h hlen 0 _ rfl o rfl
  obtain ⟨⟨_, _, k3, k4, _, k6⟩, _⟩ := C36_fields law hs hset headers _ hh htr chunks clock _ h hlen 0 _ rfl o rfl
  have hx : (o.signature.extTags.map (·.1)).Nodup := by
    rw [k6]
    exact List.nodup_nil
  have form : ∀ x, lower (writtenName E.idna false x) = lower (E.idna.toUnicode x).1 := by
    intro x
    simp only [writtenName, Bool.false_eq_true, if_false]
    split
    · assumption
    · rfl
  have mem : ∀ n ∈ [c!"d", c!"s"], ∃ v, (n, v) ∈ tags := by
    intro n hn
    have : n ∈ requestedTags (SignRequest.new (E := E) domain selector alg key) := by
      unfold requestedTags
      simp only [List.mem_cons, List.not_mem_nil, or_false] at hn
      rcases hn with rfl | rfl <;> simp
    obtain ⟨t, ht, e⟩ := List.mem_map.1 (h2.mem_iff.2 this)
    exact ⟨t.2, e ▸ ht⟩
  obtain ⟨d, hd⟩ := mem c!"d" (by simp)
  obtain ⟨s, hs⟩ := mem c!"s" (by simp)
  refine ⟨tags, h1, d, s, hd, hs, ?_, ?_⟩
  · rw [← form, ← show o.signature.domain = domain from k3]
    exact congrArg lower ((C92_determined _ _ _ hx _ _ _ (h3 _ hd) .d).2 (show c!"d" ∉ _ by decide))
  · rw [← form, ← show o.signature.selector = selector from k4]
    exact congrArg lower ((C92_determined _ _ _ hx _ _ _ (h3 _ hs) .s).2 (show c!"s" ∉ _ by decide))

/-- IDNA conversion as far as needed for one name. -/
def oneName : Idna where
  toAscii d := some (if lower d = c!"bücher.example" then c!"xn--bcher-kva.example" else lower d)
  toUnicode d := (if lower d = c!"xn--bcher-kva.example" then c!"bücher.example" else lower d, true)

/-- The forms of a name: by default the Unicode one, with ASCII output the ASCII one, and the
letter case as given if nothing else changes. -/
example : writtenName oneName false c!"XN--Bcher-kva.Example" = c!"bücher.example" ∧
    writtenName oneName false c!"Bücher.example" = c!"Bücher.example" ∧
    writtenName oneName true c!"Bücher.example" = c!"xn--bcher-kva.example" ∧
    writtenName oneName true c!"XN--Bcher-kva.Example" = c!"XN--Bcher-kva.Example" := by decide

set_option maxRecDepth 20000 in
/-- Non-vacuity of C92: a run with all tags, and one with an identity that is not ASCII. -/
example : (∃ o, TestRun testHeaders testRequest o) ∧ (∃ o, TestRun testHeaders quotedRequest o) ∧
    requestedTags testRequest =
      [c!"v", c!"d", c!"i", c!"s", c!"a", c!"c", c!"l", c!"t", c!"x", c!"h", c!"bh", c!"b", c!"z", c!"r"] :=
  ⟨⟨_, testHeaders_typed, typed_of_check (by decide), _, _, _, rfl, rfl, rfl⟩,
    ⟨_, testHeaders_typed, typed_of_check (by decide), _, _, _, rfl, rfl, rfl⟩, by decide⟩

end Dkim
