import Verif.Model.FilterObj
import Verif.Spec.FilterOctets
import Verif.Props.C66
import Verif.Props.C75
/-
C80  A search by filter text finds the entries that the text describes.

Full statement: what is sent for a text is the filter of RFC 4511 for which it stands by RFC 4515.  It is false: an escape
stands for an octet, but is read as the character of that code (`high_escape`); empty values are refused (`empty_refused`).
Proved both ways (`sent_partial`, `only_partial`) for texts without tabs whose escapes are in ASCII, with the limits of C66; and
for the whole way to the server and back (`search_by_text_partial`).
-/
namespace Verif.C80
open Verif.Spec
open Verif.FilterText (parseFilter Piece.obj Filter.obj Filter.objs stringObj)

theorem LowEscapes.part {a b c : Str} (h : LowEscapes (a ++ b ++ c)) : LowEscapes b := by
  intro pre x post e
  exact h (a ++ pre) x (post ++ c) (by rw [e]; simp)

theorem low_part {s : Str} (h : LowEscapes s) (a b c : Str) (e : s = a ++ b ++ c) : LowEscapes b :=
  LowEscapes.part (a := a) (b := b) (c := c) (e ▸ h)

theorem low_last {a b : Str} (h : LowEscapes (a ++ b)) : LowEscapes b := low_part h a b [] (by simp)

theorem hex_low {h l : Char} {m n : Nat} (hh : HexDigit h m) (hl : HexDigit l n) (hd : '0' ≤ h ∧ h ≤ '7') : 16 * m + n < 128 := by
  have h7 : h.toNat ≤ 55 := hd.2
  have h0 : 48 ≤ h.toNat := hd.1
  have hm : m ≤ 7 := by
    rcases hh with ⟨_, _, h'⟩ | ⟨h', _, _⟩ | ⟨h', _, _⟩
    · have : '0'.toNat = 48 := rfl
      omega
    · have : 97 ≤ h.toNat := h'
      omega
    · have : 65 ≤ h.toNat := h'
      omega
  have hn : n < 16 := by
    rcases hl with ⟨_, h', h⟩ | ⟨_, h', h⟩ | ⟨_, h', h⟩
    · have : l.toNat ≤ 57 := h'
      have : '0'.toNat = 48 := rfl
      omega
    · have : l.toNat ≤ 102 := h'
      have : 'a'.toNat = 97 := rfl
      omega
    · have : l.toNat ≤ 70 := h'
      have : 'A'.toNat = 65 := rfl
      omega
  omega

theorem encode_low {k : Nat} (h : k < 128) : Utf8.encode [Char.ofNat k] = [UInt8.ofNat k] := by
  have : ∀ k < 128, Utf8.encode [Char.ofNat k] = [UInt8.ofNat k] := by decide +kernel
  exact this k h

theorem encode_cons (c : Char) (v : Str) : Utf8.encode (c :: v) = Utf8.encode [c] ++ Utf8.encode v := by
  rw [← Utf8.encode_append]; rfl

theorem value_octets {t v : Str} (h : ValueText t v) : LowEscapes t → ValueOctets t (Utf8.encode v) := by
  induction h with
  | nil => intro _; exact .nil
  | plain c t v hc _ ih =>
    intro hl
    rw [encode_cons]
    exact .plain c t _ hc (ih (low_part hl [c] t [] (by simp)))
  | hex h l m n t v hh hl' _ ih =>
    intro hl
    have hd := hl [] h (l :: t) rfl
    rw [encode_cons, encode_low (hex_low hh hl' hd)]
    exact .hex h l m n t _ hh hl' (ih (low_part hl ['\\', h, l] t [] (by simp)))

theorem octets_value {t : Str} {b : Bytes} (h : ValueOctets t b) : LowEscapes t → ∃ v, ValueText t v ∧ Utf8.encode v = b := by
  induction h with
  | nil => intro _; exact ⟨[], .nil, rfl⟩
  | plain c t b hc _ ih =>
    intro hl
    obtain ⟨v, h1, rfl⟩ := ih (low_part hl [c] t [] (by simp))
    exact ⟨c :: v, .plain c t v hc h1, encode_cons c v⟩
  | hex h l m n t b hh hl' _ ih =>
    intro hl
    obtain ⟨v, h1, rfl⟩ := ih (low_part hl ['\\', h, l] t [] (by simp))
    exact ⟨_, .hex h l m n t v hh hl' h1, by rw [encode_cons, encode_low (hex_low hh hl' (hl [] h (l :: t) rfl))]; rfl⟩

theorem encode_ne {v : Str} : Utf8.encode v ≠ [] ↔ v ≠ [] := by
  constructor
  · rintro h rfl; exact h rfl
  · intro h e
    have h1 : Utf8.decode (Utf8.encode v) = .ok v := Utf8.decode_encode _
    rw [e] at h1
    have h2 : Utf8.decode ([] : Bytes) = .ok [] := by decide +kernel
    rw [h2] at h1
    cases h1; exact h rfl

/-- A part that is there or not. -/
theorem part_octets {t : Str} {v : Option Str} (h : PartText t v) (hl : LowEscapes t) : PartOctets t (v.map Utf8.encode) := by
  cases v with
  | none => exact h
  | some v => exact ⟨encode_ne.mpr h.1, value_octets h.2 hl⟩

theorem octets_part {t : Str} {b : Option Bytes} (h : PartOctets t b) (hl : LowEscapes t) : ∃ v, PartText t v ∧ v.map Utf8.encode = b := by
  cases b with
  | none => exact ⟨none, h, rfl⟩
  | some b =>
    obtain ⟨v, h1, rfl⟩ := octets_value h.2 hl
    exact ⟨some v, ⟨encode_ne.mp h.1, h1⟩, rfl⟩

theorem pieces_obj (i : Option Str) (as : List Str) (f : Option Str) :
    (pieces i as f).map Piece.obj = (parts (i.map Utf8.encode) (as.map Utf8.encode) (f.map Utf8.encode)).map subObj := by
  cases i <;> cases f <;> simp [pieces, parts, Piece.obj, subObj, Function.comp_def]

theorem pieces_nil (i : Option Str) (as : List Str) (f : Option Str) :
    pieces i as f = [] ↔ parts (i.map Utf8.encode) (as.map Utf8.encode) (f.map Utf8.encode) = [] := by
  cases i <;> cases f <;> simp [pieces, parts]

/-- Texts in a row, each followed by a star. -/
theorem low_inner {as : List Str} {l r : Str} (h : LowEscapes (l ++ (as.map fun p => p ++ "*".toList).flatten ++ r)) : ∀ t ∈ as, LowEscapes t := by
  intro t ht
  obtain ⟨xs, ys, rfl⟩ := List.append_of_mem ht
  refine low_part h (l ++ (xs.map fun p => p ++ "*".toList).flatten) t ("*".toList ++ (ys.map fun p => p ++ "*".toList).flatten ++ r) ?_
  simp

theorem low_flat {ts : List Str} {l r : Str} (h : LowEscapes (l ++ ts.flatten ++ r)) : ∀ t ∈ ts, LowEscapes t := by
  intro t ht
  obtain ⟨xs, ys, rfl⟩ := List.append_of_mem ht
  exact low_part h (l ++ xs.flatten) t (ys.flatten ++ r) (by simp)

/-- What the parser should make of a filter. -/
def Reads (s : Str) (F : Filter) (f : FilterText.Filter) : Prop := Denotes s f ∧ ClearRules f ∧ f.obj = F.build

theorem inner_values {as : List (Str × Bytes)} (h : ∀ p ∈ as, p.2 ≠ [] ∧ ValueOctets p.1 p.2) (hl : ∀ p ∈ as, LowEscapes p.1) :
    ∃ bs : List (Str × Str), bs.map Prod.fst = as.map Prod.fst ∧ (bs.map Prod.snd).map Utf8.encode = as.map Prod.snd ∧
      ∀ p ∈ bs, p.2 ≠ [] ∧ ValueText p.1 p.2 := by
  induction as with
  | nil => exact ⟨[], rfl, rfl, by simp⟩
  | cons p as ih =>
    obtain ⟨bs, h1, h2, h3⟩ := ih (fun q hq => h q (List.mem_cons_of_mem _ hq)) (fun q hq => hl q (List.mem_cons_of_mem _ hq))
    obtain ⟨hp, hv⟩ := h p List.mem_cons_self
    obtain ⟨v, g1, g2⟩ := octets_value hv (hl p List.mem_cons_self)
    refine ⟨(p.1, v) :: bs, by simp [h1], by simp [← h2, g2], fun q hq => ?_⟩
    rcases List.mem_cons.mp hq with rfl | hq
    · exact ⟨encode_ne.mp (by rw [g2]; exact hp), g1⟩
    · exact h3 q hq

theorem starred (as : List (Str × Bytes)) (bs : List (Str × Str)) (h : bs.map Prod.fst = as.map Prod.fst) :
    (bs.map fun p => p.1 ++ "*".toList).flatten = (as.map fun p => p.1 ++ "*".toList).flatten := by
  have e1 : (bs.map fun p => p.1 ++ "*".toList) = (bs.map Prod.fst).map (· ++ "*".toList) := by simp
  have e2 : (as.map fun p => p.1 ++ "*".toList) = (as.map Prod.fst).map (· ++ "*".toList) := by simp
  rw [e1, e2, h]

theorem item_reads {t : Str} {F : Filter} (h : ItemOctets t F) (hl : LowEscapes t) (hu : Usual F) :
    ∃ f, ItemText t f ∧ ClearRules f ∧ f.obj = F.build := by
  cases h with
  | equal a t b ha hv =>
    obtain ⟨v, h1, rfl⟩ := octets_value hv (low_last hl)
    cases hu with
    | equal _ _ hb => exact ⟨_, .equality a t v ha (encode_ne.mp hb) h1, by simp [ClearRules], rfl⟩
  | ge a t b ha hv =>
    obtain ⟨v, h1, rfl⟩ := octets_value hv (low_last hl)
    cases hu with
    | ge _ _ hb => exact ⟨_, .greaterOrEqual a t v ha (encode_ne.mp hb) h1, by simp [ClearRules], rfl⟩
  | le a t b ha hv =>
    obtain ⟨v, h1, rfl⟩ := octets_value hv (low_last hl)
    cases hu with
    | le _ _ hb => exact ⟨_, .lessOrEqual a t v ha (encode_ne.mp hb) h1, by simp [ClearRules], rfl⟩
  | approx a t b ha hv =>
    obtain ⟨v, h1, rfl⟩ := octets_value hv (low_last hl)
    cases hu with
    | approx _ _ hb => exact ⟨_, .approx a t v ha (encode_ne.mp hb) h1, by simp [ClearRules], rfl⟩
  | present a ha => exact ⟨_, .present a ha, by simp [ClearRules], rfl⟩
  | substrings a ti tf i f as ha hi hf has hne =>
    obtain ⟨i', h1, rfl⟩ := octets_part hi (low_part hl (a ++ "=".toList) ti ("*".toList ++ (as.map fun p => p.1 ++ "*".toList).flatten ++ tf) (by simp))
    obtain ⟨f', h2, rfl⟩ := octets_part hf (low_last hl)
    have hin := low_inner (as := as.map Prod.fst) (l := a ++ "=".toList ++ ti ++ "*".toList) (r := tf) (by rw [List.map_map]; exact hl)
    obtain ⟨bs, g1, g2, g3⟩ := inner_values has (fun p hp => hin p.1 (List.mem_map_of_mem hp))
    refine ⟨.substrings a (pieces i' (bs.map Prod.snd) f'), ?_, by simp [ClearRules], ?_⟩
    · rw [← starred as bs g1]
      refine .substrings a ti tf i' f' bs ha h1 h2 g3 (fun e => hne ?_)
      rw [pieces_nil, g2] at e
      exact e
    · simp only [Filter.obj, Filter.build, pieces_obj, g2]
  | ext a t b d r ha hr hv =>
    obtain ⟨v, h1, rfl⟩ := octets_value hv (low_last hl)
    cases hu with
    | ext _ _ _ _ hb hc =>
      refine ⟨_, .extensible a t v d r ha hr (encode_ne.mp hb) h1, ?_, rfl⟩
      cases r with
      | none => simp [ClearRules]
      | some r => simp only [ClearRules]; exact hc r rfl
  | rule r t b d hr hv =>
    obtain ⟨v, h1, rfl⟩ := octets_value hv (low_last hl)
    cases hu with
    | ext _ _ _ _ hb hc => exact ⟨_, .rule r t v d hr (encode_ne.mp hb) h1, by simp only [ClearRules]; exact hc r rfl, rfl⟩

theorem all_read {ps : List (Str × Filter)} (h : ∀ p ∈ ps, ∃ f, Reads p.1 p.2 f) :
    ∃ qs : List (Str × FilterText.Filter), qs.map Prod.fst = ps.map Prod.fst ∧ (∀ q ∈ qs, Denotes q.1 q.2 ∧ ClearRules q.2) ∧
      Filter.objs (qs.map Prod.snd) = Filter.buildAll (ps.map Prod.snd) := by
  induction ps with
  | nil => exact ⟨[], rfl, by simp, rfl⟩
  | cons p ps ih =>
    obtain ⟨qs, h1, h2, h3⟩ := ih fun q hq => h q (List.mem_cons_of_mem _ hq)
    obtain ⟨f, g1, g2, g3⟩ := h p List.mem_cons_self
    refine ⟨(p.1, f) :: qs, by simp [h1], fun q hq => ?_, by simp [Filter.objs, Filter.buildAll, h3, g3]⟩
    rcases List.mem_cons.mp hq with rfl | hq
    · exact ⟨g1, g2⟩
    · exact h2 q hq

theorem reads {s : Str} {F : Filter} (h : TextOf s F) : LowEscapes s → Usual F → ∃ f, Reads s F f := by
  induction h with
  | and ps hne _ ih =>
    intro hl hu
    cases hu with
    | and _ hu =>
      have hin := low_flat hl
      obtain ⟨qs, h1, h2, h3⟩ := all_read fun p hp => ih p hp (hin p.1 (List.mem_map_of_mem hp)) (hu p.2 (List.mem_map_of_mem hp))
      refine ⟨.and (qs.map Prod.snd), ?_, ?_, by simp only [Filter.obj, Filter.build, h3]⟩
      · rw [← h1]
        refine .and qs ?_ (fun q hq => (h2 q hq).1)
        rintro rfl
        exact hne (List.map_eq_nil_iff.mp h1.symm)
      · simp only [ClearRules]
        intro f hf
        obtain ⟨q, hq, rfl⟩ := List.mem_map.mp hf
        exact (h2 q hq).2
  | or ps hne _ ih =>
    intro hl hu
    cases hu with
    | or _ hu =>
      have hin := low_flat hl
      obtain ⟨qs, h1, h2, h3⟩ := all_read fun p hp => ih p hp (hin p.1 (List.mem_map_of_mem hp)) (hu p.2 (List.mem_map_of_mem hp))
      refine ⟨.or (qs.map Prod.snd), ?_, ?_, by simp only [Filter.obj, Filter.build, h3]⟩
      · rw [← h1]
        refine .or qs ?_ (fun q hq => (h2 q hq).1)
        rintro rfl
        exact hne (List.map_eq_nil_iff.mp h1.symm)
      · simp only [ClearRules]
        intro f hf
        obtain ⟨q, hq, rfl⟩ := List.mem_map.mp hf
        exact (h2 q hq).2
  | not t f _ ih =>
    intro hl hu
    cases hu with
    | not _ hu =>
      obtain ⟨g, h1, h2, h3⟩ := ih (low_part hl _ t _ rfl) hu
      exact ⟨.not g, .not t g h1, by simpa only [ClearRules] using h2, by simp only [Filter.obj, Filter.build, h3]⟩
  | item t f hi =>
    intro hl hu
    obtain ⟨g, h1, h2, h3⟩ := item_reads hi (low_part hl _ t _ rfl) hu
    exact ⟨g, .item t g h1, h2, h3⟩

theorem inner_octets {as : List (Str × Str)} (h : ∀ p ∈ as, p.2 ≠ [] ∧ ValueText p.1 p.2) (hl : ∀ p ∈ as, LowEscapes p.1) :
    ∀ p ∈ as.map fun p => (p.1, Utf8.encode p.2), p.2 ≠ [] ∧ ValueOctets p.1 p.2 := by
  intro p hp
  obtain ⟨q, hq, rfl⟩ := List.mem_map.mp hp
  exact ⟨encode_ne.mpr (h q hq).1, value_octets (h q hq).2 (hl q hq)⟩

theorem encode_inj {a b : Str} (h : Utf8.encode a = Utf8.encode b) : a = b := by
  have h1 : Utf8.decode (Utf8.encode a) = .ok a := Utf8.decode_encode _
  rw [h, Utf8.decode_encode] at h1
  cases h1; rfl

theorem clear_usual {r : Str} {t : Option Str} {v : Str} {d : Option Bool} (h : ClearRules (.extensible (some r) t v d)) (x : Str)
    (e : some (Utf8.encode r) = some (Utf8.encode x)) : d = some true ∨ ¬ "dn".toList <+: x := by
  rw [← encode_inj (Option.some.inj e)]
  simpa only [ClearRules] using h

theorem item_octets {t : Str} {f : FilterText.Filter} (h : ItemText t f) (hl : LowEscapes t) (hc : ClearRules f) :
    ∃ F, ItemOctets t F ∧ Usual F ∧ f.obj = F.build := by
  cases h with
  | equality a t v ha hne hv => exact ⟨_, .equal a t _ ha (value_octets hv (low_last hl)), .equal _ _ (encode_ne.mpr hne), rfl⟩
  | greaterOrEqual a t v ha hne hv => exact ⟨_, .ge a t _ ha (value_octets hv (low_last hl)), .ge _ _ (encode_ne.mpr hne), rfl⟩
  | lessOrEqual a t v ha hne hv => exact ⟨_, .le a t _ ha (value_octets hv (low_last hl)), .le _ _ (encode_ne.mpr hne), rfl⟩
  | approx a t v ha hne hv => exact ⟨_, .approx a t _ ha (value_octets hv (low_last hl)), .approx _ _ (encode_ne.mpr hne), rfl⟩
  | present a ha => exact ⟨_, .present a ha, .present _, rfl⟩
  | substrings a ti tf i f as ha hi hf has hne =>
    have g1 := part_octets hi (low_part hl (a ++ "=".toList) ti ("*".toList ++ (as.map fun p => p.1 ++ "*".toList).flatten ++ tf) (by simp))
    have g2 := part_octets hf (low_last hl)
    have hin := low_inner (as := as.map Prod.fst) (l := a ++ "=".toList ++ ti ++ "*".toList) (r := tf) (by rw [List.map_map]; exact hl)
    have g3 := inner_octets has (fun p hp => hin p.1 (List.mem_map_of_mem hp))
    have e1 : (as.map fun p => (p.1, Utf8.encode p.2)).map Prod.snd = (as.map Prod.snd).map Utf8.encode := by simp
    refine ⟨.substrings (Utf8.encode a) (parts (i.map Utf8.encode) ((as.map fun p => (p.1, Utf8.encode p.2)).map Prod.snd) (f.map Utf8.encode)),
      ?_, .substrings _ _, ?_⟩
    · rw [starred (as.map fun p => (p.1, Utf8.encode p.2)) as (by simp)]
      refine .substrings a ti tf _ _ _ ha g1 g2 g3 fun e => hne ?_
      rw [e1] at e
      exact (pieces_nil ..).mpr e
    · simp only [Filter.obj, Filter.build, pieces_obj, e1]
  | extensible a t v d r ha hr hne hv =>
    refine ⟨_, .ext a t _ d r ha hr (value_octets hv (low_last hl)), .ext _ _ _ _ (encode_ne.mpr hne) ?_, rfl⟩
    cases r with
    | none => intro x e; cases e
    | some r => exact clear_usual hc
  | rule r t v d hr hne hv =>
    exact ⟨_, .rule r t _ d hr (value_octets hv (low_last hl)), .ext _ _ _ _ (encode_ne.mpr hne) (clear_usual hc), rfl⟩

theorem all_octets {ps : List (Str × FilterText.Filter)} (h : ∀ p ∈ ps, ∃ F, TextOf p.1 F ∧ Usual F ∧ p.2.obj = F.build) :
    ∃ qs : List (Str × Filter), qs.map Prod.fst = ps.map Prod.fst ∧ (∀ q ∈ qs, TextOf q.1 q.2 ∧ Usual q.2) ∧
      Filter.objs (ps.map Prod.snd) = Filter.buildAll (qs.map Prod.snd) := by
  induction ps with
  | nil => exact ⟨[], rfl, by simp, rfl⟩
  | cons p ps ih =>
    obtain ⟨qs, h1, h2, h3⟩ := ih fun q hq => h q (List.mem_cons_of_mem _ hq)
    obtain ⟨F, g1, g2, g3⟩ := h p List.mem_cons_self
    refine ⟨(p.1, F) :: qs, by simp [h1], fun q hq => ?_, by simp [Filter.objs, Filter.buildAll, h3, g3]⟩
    rcases List.mem_cons.mp hq with rfl | hq
    · exact ⟨g1, g2⟩
    · exact h2 q hq

theorem octets {s : Str} {f : FilterText.Filter} (h : Denotes s f) : LowEscapes s → ClearRules f →
    ∃ F, TextOf s F ∧ Usual F ∧ f.obj = F.build := by
  induction h with
  | and ps hne _ ih =>
    intro hl hc
    simp only [ClearRules] at hc
    have hin := low_flat hl
    obtain ⟨qs, h1, h2, h3⟩ := all_octets fun p hp => ih p hp (hin p.1 (List.mem_map_of_mem hp)) (hc p.2 (List.mem_map_of_mem hp))
    refine ⟨.and (qs.map Prod.snd), ?_, .and _ ?_, by simp only [Filter.obj, Filter.build, h3]⟩
    · rw [← h1]
      refine .and qs ?_ (fun q hq => (h2 q hq).1)
      rintro rfl
      exact hne (List.map_eq_nil_iff.mp h1.symm)
    · intro f hf
      obtain ⟨q, hq, rfl⟩ := List.mem_map.mp hf
      exact (h2 q hq).2
  | or ps hne _ ih =>
    intro hl hc
    simp only [ClearRules] at hc
    have hin := low_flat hl
    obtain ⟨qs, h1, h2, h3⟩ := all_octets fun p hp => ih p hp (hin p.1 (List.mem_map_of_mem hp)) (hc p.2 (List.mem_map_of_mem hp))
    refine ⟨.or (qs.map Prod.snd), ?_, .or _ ?_, by simp only [Filter.obj, Filter.build, h3]⟩
    · rw [← h1]
      refine .or qs ?_ (fun q hq => (h2 q hq).1)
      rintro rfl
      exact hne (List.map_eq_nil_iff.mp h1.symm)
    · intro f hf
      obtain ⟨q, hq, rfl⟩ := List.mem_map.mp hf
      exact (h2 q hq).2
  | not t f _ ih =>
    intro hl hc
    simp only [ClearRules] at hc
    obtain ⟨F, h1, h2, h3⟩ := ih (low_part hl _ t _ rfl) hc
    exact ⟨.not F, .not t F h1, .not _ h2, by simp only [Filter.obj, Filter.build, h3]⟩
  | item t f hi =>
    intro hl hc
    obtain ⟨F, h1, h2, h3⟩ := item_octets hi (low_part hl _ t _ rfl) hc
    exact ⟨F, .item t F h1, h2, h3⟩

/-- A text is read as the filter it stands for: what is sent is that filter. -/
theorem sent_partial (s : Str) (F : Filter) (h : TextOf s F) (hu : Usual F) (hl : LowEscapes s) (ht : '\t' ∉ s) :
    ∃ f, parseFilter s = .ok f ∧ f.obj = F.build := by
  obtain ⟨f, h1, h2, h3⟩ := reads h hl hu
  exact ⟨f, C66.complete_partial s f h1 h2 ht, h3⟩

/-- Nothing else is ever sent for a text: what was read is a filter that the text stands for. -/
theorem only_partial (s : Str) (f : FilterText.Filter) (h : parseFilter s = .ok f) (hl : LowEscapes s) (ht : '\t' ∉ s) :
    ∃ F, TextOf s F ∧ Usual F ∧ f.obj = F.build := by
  obtain ⟨h1, h2⟩ := (C66.parse_iff_partial s f ht).mp h
  exact octets h1 hl h2

/-- A search by filter text through the library's own client and server (C75) gives the entries that match the filter for
which the text stands. -/
theorem search_by_text_partial (env : Server.Env) (hU : Sane env.U) (luck : Server.Luck) (st : Server.State) (hb : C67.Built env st.heap)
    (w : Client.World) (app : Client.App) (fuel c : Nat) (o : ClientSearch.Options) (hq : C52.Quiet o)
    (happ : Session.Searches env.U o w.deferreds.length app) (hnew : Session.responsesTo w.deferreds.length w.log = [])
    (hconn : (w.conns c).connected = true) (hid : 0 < w.nextId ∧ w.nextId < 2 ^ 31) (hfree : (w.conns c).onwire.lookup w.nextId = none)
    (d : Dn.Dn) (hd : Textual d) (scope deref sl tl : Int) (ty : Bool) (wanted : List Bytes)
    (s : Str) (F : Filter) (hs : TextOf s F) (hu : Usual F) (hl : LowEscapes s) (ht : '\t' ∉ s)
    (hw : ∀ k ∈ wanted, (PyStr.bytes k).Ascii) (hdist : Explicit wanted → wanted.Pairwise fun j k => Modify.fold j ≠ Modify.fold k)
    (sc : Tree.Scope) (hsc : C67.ScopeCode scope sc) (hdse : d ≠ [] ∨ scope ≠ 0) (j : Nat) (hj : Tree.lookup env.U st.heap 0 d = .ok j)
    (hlt : j < st.heap.length) (hev : C26.Evaluable env.U st.heap F.sem j sc)
    (hent : ∀ k n, C26.InScope st.heap j sc k → st.heap[k]? = some n → C67.Sendable n.entry wanted ∧ Textual n.entry.dn)
    (hsize : (Msg.mk w.nextId (.search (Utf8.encode d.text) scope deref sl tl ty F wanted) none).size < lengthLimit) :
    ∃ f, parseFilter s = .ok f ∧
    let request := Session.searchRequest d scope deref sl tl ty f.obj wanted
    let p : Client.Pending := ⟨w.deferreds.length, true, true, .plain⟩
    let w₁ := Client.call app fuel w (.sendMultiEx c request none true)
    ∃ out, w₁.log = w.log ++ [.made c w.nextId, .sent c w.nextId p request, .written c out] ∧
      ∀ segs, segs.flatten = out → ∃ sent back,
        (Conn.feed (Session.serverHandle env luck) (Conn.fresh (st, [])) segs).st = (st, sent) ∧
        (Conn.feed (Session.serverHandle env luck) (Conn.fresh (st, [])) segs).dead = false ∧
        Wires (sent.map fun x => .message x.1 x.2 none) back ∧
        ∀ segs', segs'.flatten = back →
          let s := Conn.feed (Session.clientHandle app fuel c) (Conn.fresh w₁) segs'
          let r := ClientSearch.run env.U o ((Session.responsesTo p.d s.st.log).map .response)
          s.dead = false ∧ .finished p.d ∈ s.st.log ∧ (s.st.conns c).onwire.lookup w.nextId = none ∧
          r.outcome = some .finished ∧
          ∃ ks, Each (fun k e => ∃ n, st.heap[k]? = some n ∧ Copy n.entry wanted o.complete e) ks r.entries ∧
            (∀ k, k ∈ ks ↔ C26.InScope st.heap j sc k ∧ C26.Matches env.U st.heap F.sem k) ∧ ks.Nodup ∧
            ks.Pairwise fun a b => ¬ Below st.heap b a := by
  obtain ⟨f, h1, h2⟩ := sent_partial s F hs hu hl ht
  refine ⟨f, h1, ?_⟩
  have e : Session.searchRequest d scope deref sl tl ty f.obj wanted = (Op.search (Utf8.encode d.text) scope deref sl tl ty F wanted).build := by
    simp only [Session.searchRequest, h2, Op.build, boolVal]
  rw [e]
  exact C75.search env hU luck st hb w app fuel c o hq happ hnew hconn hid hfree d hd scope deref sl tl ty F wanted hw hdist sc hsc hdse j hj
    hlt hev hent hsize

/-! ### Example -/

def text : Str := "(&(cn=B)(!(sn=\\7a)))".toList

def filter : Filter := .and [.equal (Utf8.encode "cn".toList) [0x42], .not (.equal (Utf8.encode "sn".toList) [0x7a])]

theorem sn_name : AttrName "sn".toList := ⟨'s', ['n'], rfl, by decide, by decide⟩
theorem cn_name : AttrName "cn".toList := ⟨'c', ['n'], rfl, by decide, by decide⟩

theorem b_value : ValueOctets "B".toList [0x42] := by
  have := ValueOctets.plain 'B' [] [] (by decide) .nil
  rwa [show Utf8.encode ['B'] ++ [] = [0x42] by decide +kernel] at this

theorem z_value : ValueOctets "\\7a".toList [0x7a] :=
  .hex '7' 'a' 7 10 [] [] (.inl (by decide)) (.inr (.inl (by decide))) .nil

theorem text_of : TextOf text filter :=
  .and [("(cn=B)".toList, .equal (Utf8.encode "cn".toList) [0x42]), ("(!(sn=\\7a))".toList, .not (.equal (Utf8.encode "sn".toList) [0x7a]))]
    (by simp) (by
      intro p hp
      simp only [List.mem_cons, List.not_mem_nil, or_false] at hp
      rcases hp with rfl | rfl
      · exact TextOf.item "cn=B".toList _ (.equal "cn".toList "B".toList _ cn_name b_value)
      · exact TextOf.not "(sn=\\7a)".toList _ (.item "sn=\\7a".toList _ (.equal "sn".toList "\\7a".toList _ sn_name z_value)))

theorem usual : Usual filter := by
  refine .and _ fun f hf => ?_
  simp only [List.mem_cons, List.not_mem_nil, or_false] at hf
  rcases hf with rfl | rfl
  · exact .equal _ _ (by simp)
  · exact .not _ (.equal _ _ (by simp))

/-- A text in which each backslash is followed by a low digit. -/
def lowDigits : Str → Bool
  | [] => true
  | '\\' :: c :: t => decide ('0' ≤ c ∧ c ≤ '7') && lowDigits (c :: t)
  | _ :: t => lowDigits t

theorem low_of {s : Str} (h : lowDigits s = true) : LowEscapes s := by
  intro pre
  induction pre generalizing s with
  | nil =>
    intro c post e
    subst e
    simp only [List.nil_append, lowDigits, Bool.and_eq_true, decide_eq_true_eq] at h
    exact h.1
  | cons x pre ih =>
    intro c post e
    subst e
    refine ih ?_ c post rfl
    rw [List.cons_append] at h
    unfold lowDigits at h
    split at h
    · rename_i e; cases e
    · rename_i e
      rw [(List.cons.inj e).2]
      rw [Bool.and_eq_true] at h
      exact h.2
    · rename_i e; cases e; exact h

/-- A subtree search for the text, with a negation and an escape. -/
example := search_by_text_partial C40.env asciiTables_sane C40.luck ⟨C67.heap, none⟩ C67.built C75.world (C75.program asciiTables C75.options 0)
  0 0 C75.options (fun _ => rfl) (C75.program_searches _ _ _) rfl (by decide +kernel) (by decide +kernel) (by decide +kernel) C67.root.dn
  (C75.writable 0 _ rfl) 2 0 0 0 false [Server.ascii "CN"] text filter text_of usual (low_of (by decide)) (by decide) (by decide +kernel)
  (fun _ => List.pairwise_singleton _ _) .sub .sub (.inr (by decide)) 0 (by decide +kernel) (by decide)
  (by
    intro k _ n hn
    have := List.mem_of_getElem? hn
    have : n = ⟨C67.root, none, [(['c','n','=','b'], 1)]⟩ ∨ n = ⟨C67.child, some 0, []⟩ := by simpa [C67.heap] using this
    rcases this with rfl | rfl
    · exact ⟨false, by decide +kernel⟩
    · exact ⟨true, by decide +kernel⟩)
  (fun k n _ hn => ⟨C67.sendable k n hn, C75.writable k n hn⟩) (Nat.lt_trans (by decide +kernel) Server.two64_lt_limit)

/-! ### Where the claim fails -/

/-- `(cn=\c3\a9)` stands for the name whose octets are C3 A9, é.  Four octets are sent instead. -/
theorem high_escape : ∃ F f, TextOf "(cn=\\c3\\a9)".toList F ∧ Usual F ∧ parseFilter "(cn=\\c3\\a9)".toList = .ok f ∧
    F.build = .ava .fEq 0x83 (octet [0x63, 0x6e]) (octet [0xc3, 0xa9]) ∧
    f.obj = .ava .fEq 0x83 (octet [0x63, 0x6e]) (octet [0xc3, 0x83, 0xc2, 0xa9]) := by
  have e : Utf8.encode "cn".toList = [0x63, 0x6e] := by decide +kernel
  have e' : Utf8.encode [Char.ofNat 0xc3, Char.ofNat 0xa9] = [0xc3, 0x83, 0xc2, 0xa9] := by decide +kernel
  have hv : ValueOctets "\\c3\\a9".toList [0xc3, 0xa9] :=
    .hex 'c' '3' 12 3 "\\a9".toList [0xa9] (.inr (.inl (by decide))) (.inl (by decide))
      (.hex 'a' '9' 10 9 [] [] (.inr (.inl (by decide))) (.inl (by decide)) .nil)
  refine ⟨.equal (Utf8.encode "cn".toList) [0xc3, 0xa9], .equality "cn".toList [Char.ofNat 0xc3, Char.ofNat 0xa9],
    .item "cn=\\c3\\a9".toList _ (.equal "cn".toList "\\c3\\a9".toList _ cn_name hv), .equal _ _ (by simp), ?_, ?_, ?_⟩
  · refine C66.complete_partial _ _ ?_ (by simp [ClearRules]) (by decide)
    exact .item "cn=\\c3\\a9".toList _ (.equality "cn".toList "\\c3\\a9".toList _ cn_name (by simp)
      (.hex 'c' '3' 12 3 "\\a9".toList _ (.inr (.inl (by decide))) (.inl (by decide))
        (.hex 'a' '9' 10 9 [] [] (.inr (.inl (by decide))) (.inl (by decide)) .nil)))
  · simp only [Filter.build, e]
  · simp only [Filter.obj, stringObj, e, e', octet]

/-- An empty value is in the grammar but refused. -/
theorem empty_refused : TextOf "(cn=)".toList (.equal (Utf8.encode "cn".toList) []) ∧ parseFilter "(cn=)".toList = .error .parseError :=
  ⟨.item "cn=".toList _ (.equal "cn".toList [] [] cn_name .nil), by
    have h : (parseFilter "(cn=)".toList).toOption.isNone = true := by decide +kernel
    cases hp : parseFilter "(cn=)".toList with
    | ok f => rw [hp] at h; cases h
    | error e =>
      unfold parseFilter at hp
      simp only at hp
      split at hp
      · cases hp
      · cases hp; rfl⟩

end Verif.C80
