import Verif.Proofs.RfcRecordWritten
import Verif.Proofs.Tamper
import Verif.Props.Record
import Verif.Props.TagListExact

/-!
# Property C101: key records in the grammar of the RFC are read as what they mean

`Spec.Rfc.Record` is the grammar of RFC 6376, section 3.6.1, with the meaning of each tag.
-/

namespace Dkim

open Spec

/-- C101: every text that is a key record by the grammar of the RFC, and lists a known hash
algorithm and a known service type if it has such lists, is read, and with the content that the RFC
gives it. `SingleFws` is the exception of C22. -/
theorem C101_reads_rfc (lossy : Bytes → Str) (pre : Bool) (txt : Str) (tags : List (Str × Str)) (r : KeyRecord)
    (ht : RfcListText tags txt) (hn : (tags.map (·.1)).Nodup) (hw : SingleFws txt)
    (h : Rfc.Record lossy pre tags r) (l : Rfc.RecordLimits r) : recordFromStr lossy pre txt = .ok r := by
  have ht' := rfcListText_single ht hw
  exact (C33_parse_exact lossy pre txt r).2 ⟨tags, ht', hn, rfcRecord (fun t h => listText_values ht' t h) h l⟩

theorem itemsText_unique {α : Type} {named : Str → Option α} {v : Str} (hv : IsValue v) {xs ys : List α}
    (h : ItemsText named v xs) (h' : ItemsText named v ys) : xs = ys := by
  have e1 := (recItems_text named hv xs).2 h
  have e2 := (recItems_text named hv ys).2 h'
  rw [e1] at e2
  exact Option.some.inj e2

/-- C101: a text that the library reads as a key record is in the grammar of the RFC, with the same
meaning, exactly if the items of its lists are words by the RFC and its notes are in ASCII. -/
theorem C101_read_exactly (lossy : Bytes → Str) (pre : Bool) (txt : Str) (r : KeyRecord)
    (h : recordFromStr lossy pre txt = .ok r) (tags : List (Str × Str)) (ht : ListText tags txt) :
    Rfc.Record lossy pre tags r ↔ Rfc.StrictRecord tags := by
  obtain ⟨tags', h1, h2, h3⟩ := (C33_parse_exact lossy pre txt r).1 h
  have e := listText_unique h1 ht
  subst e
  exact rfcRecord_iff (fun t h => listText_values ht t h) h2 h3

/-- C101: and a record in which no hash algorithm is known, or no service type, is not read at
all, as it can not be used (RFC 6376, section 6.1.2). -/
theorem C101_useless (lossy : Bytes → Str) (pre : Bool) (txt : Str) (tags : List (Str × Str)) (r : KeyRecord)
    (ht : RfcListText tags txt) (hn : (tags.map (·.1)).Nodup) (hw : SingleFws txt)
    (h : Rfc.Record lossy pre tags r) : (∃ r', recordFromStr lossy pre txt = .ok r') ↔ Rfc.RecordLimits r := by
  constructor
  · rintro ⟨r', hr'⟩
    have ht' := rfcListText_single ht hw
    obtain ⟨tags', h1, h2, h3⟩ := (C33_parse_exact lossy pre txt r').1 hr'
    have e := listText_unique h1 ht'
    subst e
    have hv : ∀ n v v', (n, v) ∈ tags' → (n, v') ∈ tags' → v = v' := fun n v v' hv hv' => nodup_fst hn hv hv'
    refine ⟨?_, ?_⟩
    · intro he
      rcases h.hashAlgorithms with ⟨v, hm, ws, k1, k2⟩ | ⟨_, k⟩
      · rcases h3.hashAlgorithms with ⟨v', hm', ⟨k3, k4⟩⟩ | ⟨k, _⟩
        · cases hv _ _ _ hm hm'
          apply k4
          have := itemsText_unique (listText_values ht' _ hm) k3 (rfcItems (fun _ => hyphenatedWord_good) ⟨ws, k1, k2⟩)
          rw [this, he]
        · exact k _ hm
      · rw [k] at he
        split at he <;> cases he
    · intro he
      rcases h.serviceTypes with ⟨v, hm, ws, k1, k2⟩ | ⟨_, k⟩
      · rcases h3.serviceTypes with ⟨v', hm', ⟨k3, k4⟩⟩ | ⟨k, _⟩
        · cases hv _ _ _ hm hm'
          apply k4
          have := itemsText_unique (listText_values ht' _ hm) k3 (rfcItems (fun w hw => by
            rcases hw with hw | rfl
            · exact hyphenatedWord_good hw
            · exact goodItem_of (by simp) (by simp [fwsChar])) ⟨ws, k1, k2⟩)
          rw [this, he]
        · exact k _ hm
      · rw [k] at he
        cases he
  · intro l
    exact ⟨r, C101_reads_rfc lossy pre txt tags r ht hn hw h l⟩

/-! ### A concrete record -/

/-- The tags of a record with given hash algorithms. -/
def rfcRecordTags (h : Str) : List (Str × Str) :=
  [(c!"v", c!"DKIM1"), (c!"h", h), (c!"k", c!"ED25519"), (c!"n", c!"a =3D\tb"), (c!"s", c!"fax:*"),
    (c!"t", c!"Y : x-1"), (c!"zz", c!"?"), (c!"p", c!"AA =\r\n =")]

def rfcRecordText (h : Str) : Str := (rfcRecordTags h).flatMap fun t => c!"\r\n\t" ++ t.1 ++ c!" = " ++ t.2 ++ c!" ;"

def rfcRecordMeaning (hs : List HashAlg) : KeyRecord where
  hashAlgorithms := hs
  keyType := .ed25519
  notes := some c!"a =\tb"
  keyData := [0]
  serviceTypes := [.any]
  flags := [.testing]
  extTags := [(c!"zz", c!"?")]

/-- Bytes as characters. -/
def plainLossy (b : Bytes) : Str := b.map fun x => Char.ofNat x.toNat

theorem fws_space : OptFws c!" " := .inr (.plain _ (by simp) (by simp [wsp]))

local instance recordDec0 (c : Char) : Decidable (letter c) := by unfold letter; infer_instance
local instance recordDec1 (c : Char) : Decidable (digit c) := by unfold digit; infer_instance
local instance recordDec2 (c : Char) : Decidable (Rfc.LetDig c) := by unfold Rfc.LetDig; infer_instance
local instance recordDec3 (c : Char) (n : Nat) : Decidable (HexVal c n) := by unfold HexVal; infer_instance

theorem rfcRecordExample {h : Str} {hs : List HashAlg}
    (hh : ∃ ws, Rfc.Words Rfc.HyphenatedWord ws h ∧ hs = ws.filterMap (hashNamed false)) :
    Rfc.Record plainLossy false (rfcRecordTags h) (rfcRecordMeaning hs) where
  version := by
    intro v hv
    have : v = c!"DKIM1" := by simpa [rfcRecordTags] using hv
    subst this
    exact ⟨rfl, rfl⟩
  hashAlgorithms := .inl ⟨h, by simp [rfcRecordTags], hh⟩
  keyType := .inl ⟨c!"ED25519", by simp [rfcRecordTags], .ed25519 _ (by decide)⟩
  notes := by
    refine ⟨c!"a =3D\tb", by simp [rfcRecordTags], b!"a =\tb", ⟨?_, ?_⟩, by rfl⟩
    · exact .safe 'a' _ _ (by decide) (by decide) (by decide) (.blank ' ' _ _ (.inl rfl)
        (.octet '3' 'D' 3 13 _ _ (by decide) (by decide) (.blank '\t' _ _ (.inr rfl)
          (.safe 'b' _ _ (by decide) (by decide) (by decide) .nil))))
    · intro r c e
      have := congrArg List.getLast? e
      simp at this
      subst this
      decide
  keyData := by
    refine ⟨c!"AA =\r\n =", by simp [rfcRecordTags],
      .inr ⟨⟨'A', c!"A =\r\n =", by simp [Rfc.AlphaDigitPs, letter], ?_, rfl⟩, by rfl⟩⟩
    refine .char [] 'A' _ (.inl rfl) (by simp [Rfc.AlphaDigitPs, letter]) ?_
    exact .pads c!" " c!"\r\n " fws_space (.inr (.folded [] c!" " (by simp) (by simp) (by simp [wsp])))
  serviceTypes := .inl ⟨c!"fax:*", by simp [rfcRecordTags], [c!"fax", c!"*"],
    .more c!"fax" [] [] _ c!"*" (.inl (.more 'f' c!"a" 'x' (by decide) (by decide) (by decide))) (.inl rfl) (.inl rfl)
      (.one _ (.inr rfl)), by rfl⟩
  flags := .inl ⟨c!"Y : x-1", by simp [rfcRecordTags], [c!"Y", c!"x-1"],
    .more c!"Y" c!" " c!" " _ c!"x-1" (.one 'Y' (by decide)) fws_space fws_space
      (.one _ (.more 'x' c!"-" '1' (by decide) (by decide) (by decide))), by rfl⟩
  others := by rfl

set_option maxRecDepth 4000 in
/-- Non-vacuity of C101: a record with all the tags, and one with an unknown hash algorithm only. -/
example :
    recordFromStr plainLossy false (rfcRecordText c!"sha256 : sha4096") = .ok (rfcRecordMeaning [.sha256]) ∧
    ¬ ∃ r, recordFromStr plainLossy false (rfcRecordText c!"sha4096") = .ok r := by
  have word : Rfc.HyphenatedWord c!"sha4096" := .more 's' c!"ha409" '6' (by decide) (by decide) (by decide)
  constructor
  · have hp : parseTagList (rfcRecordText c!"sha256 : sha4096") = .ok (ofPairs (rfcRecordTags c!"sha256 : sha4096")) := by
      rfl
    obtain ⟨h1, h2, h3⟩ := (C22_rfc_exactly _ _).1 hp
    exact C101_reads_rfc plainLossy false _ _ _ h1 h2 h3 (rfcRecordExample (hs := [.sha256])
      ⟨[c!"sha256", c!"sha4096"], .more c!"sha256" c!" " c!" " _ c!"sha4096"
        (.more 's' c!"ha25" '6' (by decide) (by decide) (by decide)) fws_space fws_space (.one _ word), by rfl⟩)
      ⟨by simp [rfcRecordMeaning], by simp [rfcRecordMeaning]⟩
  · have hp : parseTagList (rfcRecordText c!"sha4096") = .ok (ofPairs (rfcRecordTags c!"sha4096")) := by rfl
    obtain ⟨h1, h2, h3⟩ := (C22_rfc_exactly _ _).1 hp
    rw [C101_useless plainLossy false _ _ _ h1 h2 h3 (rfcRecordExample (hs := []) ⟨[c!"sha4096"], .one _ word, by rfl⟩)]
    intro l
    exact l.hashAlgorithms rfl

end Dkim
