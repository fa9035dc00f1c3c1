import Verif.Lemmas.Base64
import Verif.Lemmas.PyStr
import Verif.Model.Password
/-
C19  A password that was set is accepted, and only it.

The hash is any function with 20 octets of output; nothing else is assumed of it.
-/
namespace Verif.C19
open Verif.Password Verif.Base64

theorem rstrip_newline (s : Bytes) (x : UInt8) (hx : isSpace x = false) : rstrip (s ++ [x] ++ [10]) = s ++ [x] := by
  unfold rstrip
  rw [List.reverse_append, List.reverse_append]
  simp only [List.reverse_cons, List.reverse_nil, List.nil_append, List.cons_append]
  rw [List.dropWhile_cons_of_pos (by decide), List.dropWhile_cons_of_neg (by simp [hx])]
  simp

/-- Base64 characters are not white space. -/
theorem alphabet_notSpace {b : UInt8} (h : Alphabet b) : isSpace b = false := by
  rcases h with ⟨n, hn, rfl⟩ | rfl
  · have : ∀ m : Fin 64, isSpace (digit m) = false := by decide
    exact this ⟨n, hn⟩
  · decide

theorem encode_ne_nil {s : Bytes} (h : s ≠ []) : encode s ≠ [] := by
  match s, h with
  | [_], _ => simp [encode]
  | [_, _], _ => simp [encode]
  | _ :: _ :: _ :: _, _ => simp [encode]

/-- The text written by `encodebytes` is a non-empty text that ends in a base64 character, and a newline. -/
theorem encodeLines_last (n : Nat) (s : Bytes) (hn : s.length ≤ n) (h : s ≠ []) :
    ∃ t x, encodeLines n s = t ++ [x] ++ [10] ∧ Alphabet x := by
  induction n generalizing s with
  | zero => simp at hn; exact absurd hn h
  | succ n ih =>
    cases s with
    | nil => exact absurd rfl h
    | cons a s =>
      simp only [encodeLines]
      by_cases hd : (a :: s).drop 57 = []
      · rw [hd]
        have e : encodeLines n [] = [] := by cases n <;> rfl
        rw [e]
        have hne : encode ((a :: s).take 57) ≠ [] := encode_ne_nil (by simp)
        refine ⟨(encode ((a :: s).take 57)).dropLast, (encode ((a :: s).take 57)).getLast hne, ?_, ?_⟩
        · rw [List.dropLast_concat_getLast]
        · exact encode_alphabet _ _ (List.getLast_mem hne)
      · obtain ⟨t, x, ht, hx⟩ := ih _ (by simp at hn ⊢; omega) hd
        exact ⟨encode ((a :: s).take 57) ++ 10 :: t, x, by rw [ht]; simp, hx⟩

/-- What is stored decodes to the hash and the salt. -/
theorem decode_stripped (s : Bytes) (h : s ≠ []) : decodebytes (rstrip (encodebytes s)) = .ok s := by
  obtain ⟨t, x, ht, hx⟩ := encodeLines_last s.length s (Nat.le_refl _) h
  have e : encodebytes s = t ++ [x] ++ [10] := ht
  have h1 := decodebytes_encodebytes s
  unfold decodebytes at h1 ⊢
  rw [← decodeLoop_filter] at h1 ⊢
  rw [e] at h1 ⊢
  rw [rstrip_newline t x (alphabet_notSpace hx)]
  rw [List.filter_append] at h1
  simpa using h1

theorem isPrefixOf_append {α : Type} [BEq α] [LawfulBEq α] (s t : List α) : s.isPrefixOf (s ++ t) = true :=
  List.isPrefixOf_iff_prefix.mpr ⟨t, rfl⟩

theorem sshaDigest_inj {sha1 : Bytes → Bytes} (h20 : ∀ b, (sha1 b).length = 20) (p q salt : Bytes)
    (h : sshaDigest sha1 p salt = sshaDigest sha1 q salt) : sha1 (p ++ salt) = sha1 (q ++ salt) := by
  unfold sshaDigest at h
  have h := List.append_cancel_left h
  have hp : sha1 (p ++ salt) ++ salt ≠ [] := by intro e; have := h20 (p ++ salt); rw [(List.append_eq_nil_iff.mp e).1] at this; cases this
  have hq : sha1 (q ++ salt) ++ salt ≠ [] := by intro e; have := h20 (q ++ salt); rw [(List.append_eq_nil_iff.mp e).1] at this; cases this
  have h1 := decode_stripped _ hp
  rw [h, decode_stripped _ hq] at h1
  exact (List.append_cancel_right (Except.ok.inj h1)).symm

/-- One stored digest accepts a password iff the salted hashes agree. -/
theorem accepts_digest {sha1 : Bytes → Bytes} (h20 : ∀ b, (sha1 b).length = 20) (p q salt : Bytes) :
    accepts sha1 q (.bytes (sshaDigest sha1 p salt)) = .ok (decide (sha1 (q ++ salt) = sha1 (p ++ salt))) := by
  have hp : sha1 (p ++ salt) ++ salt ≠ [] := by intro e; have := h20 (p ++ salt); rw [(List.append_eq_nil_iff.mp e).1] at this; cases this
  have hpre : sshaTag.isPrefixOf (sshaDigest sha1 p salt) = true := isPrefixOf_append _ _
  have hdrop : (sshaDigest sha1 p salt).drop sshaTag.length = rstrip (encodebytes (sha1 (p ++ salt) ++ salt)) := by
    unfold sshaDigest; rw [List.drop_left]
  have e : accepts sha1 q (.bytes (sshaDigest sha1 p salt)) = (do
      let raw ← decodebytes ((sshaDigest sha1 p salt).drop sshaTag.length)
      return sshaDigest sha1 q (raw.drop 20) == sshaDigest sha1 p salt) := by
    unfold accepts; exact if_pos hpre
  rw [e, hdrop, decode_stripped _ hp]
  have hsalt : (sha1 (p ++ salt) ++ salt).drop 20 = salt := by rw [← h20 (p ++ salt), List.drop_left]
  simp only [bind, Except.bind, hsalt, pure, Except.pure]
  congr 1
  rw [Bool.eq_iff_iff]
  simp only [beq_iff_eq, decide_eq_true_eq]
  constructor
  · exact fun h => sshaDigest_inj h20 _ _ _ h
  · intro h; unfold sshaDigest; rw [h]

theorem find_set_same (U : Unicode) (d : Attrs) (k : PyStr) (vs : List PyStr) : (d.set U k vs).find U k = some vs := by
  induction d with
  | nil => simp [Attrs.set, Attrs.find]
  | cons p d ih =>
    obtain ⟨k', vs'⟩ := p
    simp only [Attrs.set]
    split
    · simp [Attrs.find]
    · rename_i h; simp [Attrs.find, h, ih]

theorem find_set_other (U : Unicode) (d : Attrs) (k k2 : PyStr) (vs : List PyStr) (h : k.lower U ≠ k2.lower U) :
    (d.set U k vs).find U k2 = d.find U k2 := by
  induction d with
  | nil => simp [Attrs.set, Attrs.find, h]
  | cons p d ih =>
    obtain ⟨k', vs'⟩ := p
    simp only [Attrs.set]
    split
    · rename_i e; simp [Attrs.find, h, e]
    · simp only [Attrs.find, ih]

theorem keys_strings : textKey.getStrings = .ok [textKey, bytesKey] ∧ bytesKey.getStrings = .ok [bytesKey, textKey] := by
  decide +kernel

theorem get_text (U : Unicode) (e : Entry) : e.get U textKey =
    .ok ((e.attrs.find U textKey).or (e.attrs.find U bytesKey)) := by
  simp only [Entry.get, keys_strings.1, bind, Except.bind, pure, Except.pure, Entry.firstOf]
  cases e.attrs.find U textKey <;> cases e.attrs.find U bytesKey <;> rfl

theorem get_bytes (U : Unicode) (e : Entry) : e.get U bytesKey =
    .ok ((e.attrs.find U bytesKey).or (e.attrs.find U textKey)) := by
  simp only [Entry.get, keys_strings.2, bind, Except.bind, pure, Except.pure, Entry.firstOf]
  cases e.attrs.find U textKey <;> cases e.attrs.find U bytesKey <;> rfl

theorem mkSet_single (x : PyStr) : mkSet [x] = [x] := rfl

theorem tb (U : Unicode) : textKey.lower U ≠ bytesKey.lower U := nofun
theorem bt (U : Unicode) : bytesKey.lower U ≠ textKey.lower U := nofun

/-- After setting a password every form of the attribute holds exactly the new digest. -/
theorem setPassword_attrs (U : Unicode) (sha1 : Bytes → Bytes) (order : Bool) (e : Entry) (p salt : Bytes) :
    ∃ e', setPassword U sha1 order e p salt = .ok e' ∧
      e'.attrs.find U bytesKey = some [.bytes (sshaDigest sha1 p salt)] ∧
      (e'.attrs.find U textKey = none ∨ e'.attrs.find U textKey = some [.bytes (sshaDigest sha1 p salt)]) ∧
      e'.dn = e.dn ∧ ∀ k, k.lower U ≠ textKey.lower U → k.lower U ≠ bytesKey.lower U →
        e'.attrs.find U k = e.attrs.find U k := by
  generalize hc : PyStr.bytes (sshaDigest sha1 p salt) = c
  have hstep : ∀ e k, k = textKey ∨ k = bytesKey → setIfPresent U c e k =
      .ok (if ((e.attrs.find U textKey).isSome || (e.attrs.find U bytesKey).isSome) then e.setItem U k [c] else e) := by
    intro e k hk
    rcases hk with rfl | rfl
    · simp only [setIfPresent, Entry.hasKey, get_text, bind, Except.bind, pure, Except.pure, Option.isSome_or]
    · simp only [setIfPresent, Entry.hasKey, get_bytes, bind, Except.bind, pure, Except.pure, Option.isSome_or]
      rw [Bool.or_comm]
  unfold setPassword
  simp only [hc]
  cases order with
  | true =>
    simp only [keys, if_true, List.foldlM_cons, List.foldlM_nil, hstep _ _ (Or.inl rfl), hstep _ _ (Or.inr rfl),
      bind, Except.bind, pure, Except.pure]
    refine ⟨_, rfl, ?_, ?_, ?_, ?_⟩
    · simp [Entry.setItem, mkSet_single, find_set_same]
    · cases h1 : e.attrs.find U textKey <;> cases h2 : e.attrs.find U bytesKey <;>
        simp [Entry.setItem, mkSet_single, find_set_same, find_set_other, tb, bt, h1, h2]
    · split <;> (try split) <;> rfl
    · intro k n1 n2
      split <;> (try split) <;> simp [Entry.setItem, find_set_other, n1.symm, n2.symm]
  | false =>
    simp only [keys, Bool.false_eq_true, if_false, List.foldlM_cons, List.foldlM_nil, hstep _ _ (Or.inl rfl),
      hstep _ _ (Or.inr rfl), bind, Except.bind, pure, Except.pure]
    refine ⟨_, rfl, ?_, ?_, ?_, ?_⟩
    · simp [Entry.setItem, mkSet_single, find_set_same]
    · cases h1 : e.attrs.find U textKey <;> cases h2 : e.attrs.find U bytesKey <;>
        simp [Entry.setItem, mkSet_single, find_set_same, find_set_other, tb, bt, h1, h2]
    · split <;> (try split) <;> rfl
    · intro k n1 n2
      split <;> (try split) <;> simp [Entry.setItem, find_set_other, n1.symm, n2.symm]

/-- After a password is set, a bind answers, and succeeds exactly for the passwords with the same salted hash: whatever
the entry held before, and in whatever order the two forms of the attribute name are tried. -/
theorem set_then_bind (U : Unicode) (sha1 : Bytes → Bytes) (h20 : ∀ b, (sha1 b).length = 20) (o1 o2 : Bool) (e : Entry)
    (p salt : Bytes) (q : PyStr) :
    ∃ e', setPassword U sha1 o1 e p salt = .ok e' ∧
      tryBind U sha1 o2 e' q = .ok (decide (sha1 (q.toBytes ++ salt) = sha1 (p ++ salt))) := by
  obtain ⟨e', he, hb, ht, _⟩ := setPassword_attrs U sha1 o1 e p salt
  refine ⟨e', he, ?_⟩
  have h1 : e'.get U textKey = .ok (some [.bytes (sshaDigest sha1 p salt)]) := by
    rw [get_text, hb]; rcases ht with h | h <;> rw [h] <;> rfl
  have h2 : e'.get U bytesKey = .ok (some [.bytes (sshaDigest sha1 p salt)]) := by rw [get_bytes, hb]; rfl
  have key : ∀ k, k = textKey ∨ k = bytesKey → (do
      let r ← e'.get U k
      anyPy (accepts sha1 q.toBytes) (r.getD [])) = .ok (decide (sha1 (q.toBytes ++ salt) = sha1 (p ++ salt))) := by
    intro k hk
    have hk' : e'.get U k = .ok (some [.bytes (sshaDigest sha1 p salt)]) := by rcases hk with rfl | rfl <;> assumption
    simp only [hk', bind, Except.bind, Option.getD_some, anyPy, accepts_digest h20]
    cases decide (sha1 (q.toBytes ++ salt) = sha1 (p ++ salt)) <;> rfl
  unfold tryBind keys
  cases o2 with
  | true =>
    simp only [if_true, anyPy, key _ (Or.inl rfl), key _ (Or.inr rfl)]
    simp only [bind, Except.bind]
    cases decide (sha1 (q.toBytes ++ salt) = sha1 (p ++ salt)) <;> rfl
  | false =>
    simp only [Bool.false_eq_true, if_false, anyPy, key _ (Or.inl rfl), key _ (Or.inr rfl)]
    simp only [bind, Except.bind]
    cases decide (sha1 (q.toBytes ++ salt) = sha1 (p ++ salt)) <;> rfl

/-- The password just set is accepted. -/
theorem set_accepted (U : Unicode) (sha1 : Bytes → Bytes) (h20 : ∀ b, (sha1 b).length = 20) (o1 o2 : Bool) (e : Entry)
    (p salt : Bytes) : ∃ e', setPassword U sha1 o1 e p salt = .ok e' ∧ tryBind U sha1 o2 e' (.bytes p) = .ok true := by
  obtain ⟨e', h1, h2⟩ := set_then_bind U sha1 h20 o1 o2 e p salt (.bytes p)
  exact ⟨e', h1, by rw [h2]; simp [PyStr.toBytes]⟩

/-- Any other password - such as one stored before - is refused unless it collides. -/
theorem others_refused (U : Unicode) (sha1 : Bytes → Bytes) (h20 : ∀ b, (sha1 b).length = 20) (o1 o2 : Bool) (e e' : Entry)
    (p salt : Bytes) (q : PyStr) (he : setPassword U sha1 o1 e p salt = .ok e')
    (hn : sha1 (q.toBytes ++ salt) ≠ sha1 (p ++ salt)) : tryBind U sha1 o2 e' q = .ok false := by
  obtain ⟨e2, h1, h2⟩ := set_then_bind U sha1 h20 o1 o2 e p salt q
  rw [he] at h1
  cases h1
  rw [h2]; simp [hn]

/-- Setting a password changes nothing else. -/
theorem others_unchanged (U : Unicode) (sha1 : Bytes → Bytes) (o : Bool) (e e' : Entry) (p salt : Bytes)
    (he : setPassword U sha1 o e p salt = .ok e') : e'.dn = e.dn ∧
    ∀ k, k.lower U ≠ textKey.lower U → k.lower U ≠ bytesKey.lower U → e'.attrs.find U k = e.attrs.find U k := by
  obtain ⟨e2, h1, _, _, h⟩ := setPassword_attrs U sha1 o e p salt
  rw [he] at h1
  cases h1
  exact h

/-- A toy hash: the first 20 octets, padded. -/
def toyHash (b : Bytes) : Bytes := (b ++ List.replicate 20 0).take 20
theorem toyHash_length (b : Bytes) : (toyHash b).length = 20 := by simp [toyHash]

/-- An entry with a plain-text password under the text form of the name, another under the octet form, and a corrupt
digest. -/
def before : Entry := ⟨[], [(.text "USERPASSWORD".toList, [.text ['o', 'l', 'd'], .bytes [0x7b, 0x53, 0x53, 0x48, 0x41, 0x7d, 0x41]]),
  (bytesKey, [.bytes [0x6f]])]⟩

example : (∀ b, (toyHash b).length = 20) ∧ ∃ e', setPassword asciiTables toyHash true before [1, 2] [3] = .ok e' ∧
    tryBind asciiTables toyHash true e' (.bytes [1, 2]) = .ok true ∧
    tryBind asciiTables toyHash false e' (.text ['o', 'l', 'd']) = .ok false ∧
    toyHash ([2, 2] ++ [3]) ≠ toyHash ([1, 2] ++ [3]) :=
  ⟨toyHash_length, _, rfl, by decide +kernel, by decide +kernel, by decide⟩

/-- Without a prior `setPassword`, a corrupt digest makes the bind raise instead of trying the other values. -/
theorem corrupt_digest_raises : tryBind asciiTables toyHash true
      ⟨[], [(bytesKey, [.bytes (sshaTag ++ [0x41]), .bytes [0x6f]])]⟩ (.bytes [0x6f]) = .error .valueError ∧
    tryBind asciiTables toyHash true ⟨[], [(bytesKey, [.bytes [0x6f]])]⟩ (.bytes [0x6f]) = .ok true := by
  decide +kernel

theorem anyPy_iff {α : Type} {p : α → Py Bool} {l : List α} {b : Bool} (h : anyPy p l = .ok b) :
    b = true ↔ ∃ x ∈ l, p x = .ok true := by
  induction l with
  | nil => cases h; simp
  | cons a l ih =>
    cases hp : p a with
    | error e => simp [anyPy, hp, bind, Except.bind] at h
    | ok c =>
      cases c with
      | true =>
        have : b = true := by simpa [anyPy, hp, bind, Except.bind, pure, Except.pure, eq_comm] using h
        simp [this, hp]
      | false =>
        have h : anyPy p l = .ok b := by simpa [anyPy, hp, bind, Except.bind] using h
        rw [ih h]
        simp [hp]

/-- A stored value vouches for a password: it is the password itself, or its salted digest under some salt. -/
def Vouches (sha1 : Bytes → Bytes) (password stored : Bytes) : Prop :=
  (¬ sshaTag <+: stored ∧ stored = password) ∨ ∃ salt, stored = sshaDigest sha1 password salt

theorem accepts_sound {sha1 : Bytes → Bytes} {q : Bytes} {v : PyStr} (h : accepts sha1 q v = .ok true) :
    Vouches sha1 q v.toBytes := by
  unfold accepts at h
  simp only at h
  split at h
  · cases hd : decodebytes (v.toBytes.drop sshaTag.length) with
    | error e => rw [hd] at h; cases h
    | ok raw =>
      rw [hd] at h
      simp only [bind, Except.bind, pure, Except.pure, Except.ok.injEq, beq_iff_eq] at h
      exact .inr ⟨_, h.symm⟩
  · rename_i hp
    simp only [Except.ok.injEq, beq_iff_eq] at h
    exact .inl ⟨fun hx => hp (List.isPrefixOf_iff_prefix.mpr hx), h⟩

theorem accepts_complete {sha1 : Bytes → Bytes} (h20 : ∀ b, (sha1 b).length = 20) {q : Bytes} {v : PyStr}
    (h : Vouches sha1 q v.toBytes) : accepts sha1 q v = .ok true := by
  rcases h with ⟨h1, h2⟩ | ⟨salt, h⟩
  · unfold accepts
    simp only
    rw [if_neg (fun hx => h1 (List.isPrefixOf_iff_prefix.mp hx))]
    simp [h2]
  · have := accepts_digest h20 q q salt
    simp only [decide_true] at this
    rw [← this]
    unfold accepts
    rw [h]
    rfl

/-- A bind that answers at all succeeds iff some value stored under either form of `userPassword` vouches for the
password. -/
theorem bind_iff (U : Unicode) (sha1 : Bytes → Bytes) (h20 : ∀ b, (sha1 b).length = 20) (o : Bool) (e : Entry) (q : PyStr)
    (b : Bool) (h : tryBind U sha1 o e q = .ok b) :
    b = true ↔ ∃ k, (k = textKey ∨ k = bytesKey) ∧ ∃ vs, e.get U k = .ok (some vs) ∧ ∃ v ∈ vs, Vouches sha1 q.toBytes v.toBytes := by
  have hk : ∀ k, k ∈ keys o ↔ (k = textKey ∨ k = bytesKey) := by
    intro k
    unfold keys
    cases o <;> simp [or_comm]
  unfold tryBind at h
  rw [anyPy_iff h]
  constructor
  · rintro ⟨k, hm, hp⟩
    refine ⟨k, (hk k).mp hm, ?_⟩
    cases hg : e.get U k with
    | error e => rw [hg] at hp; cases hp
    | ok r =>
      rw [hg] at hp
      simp only [bind, Except.bind] at hp
      obtain ⟨v, hv, ha⟩ := (anyPy_iff hp).mp rfl
      cases r with
      | none => simp at hv
      | some vs => exact ⟨vs, rfl, v, hv, accepts_sound ha⟩
  · rintro ⟨k, hm, vs, hg, v, hv, ha⟩
    refine Classical.byContradiction fun hcon => ?_
    have hno : ∀ k ∈ keys o, (do
        let r ← e.get U k
        anyPy (accepts sha1 q.toBytes) (r.getD []) : Py Bool) ≠ .ok true := by
      intro k' hk' he
      exact hcon ⟨k', hk', he⟩
    have hb : b = false := by
      cases b with
      | false => rfl
      | true => exact absurd ((anyPy_iff h).mp rfl) hcon
    subst hb
    -- every round answered, so this one did
    have hall : ∀ (l : List PyStr) (p : PyStr → Py Bool), anyPy p l = .ok false → ∀ x ∈ l, p x = .ok false := by
      intro l p
      induction l with
      | nil => simp
      | cons a l ih =>
        intro h x hx
        cases hp : p a with
        | error e => simp [anyPy, hp, bind, Except.bind] at h
        | ok c =>
          cases c with
          | true => simp [anyPy, hp, bind, Except.bind, pure, Except.pure] at h
          | false =>
            have h : anyPy p l = .ok false := by simpa [anyPy, hp, bind, Except.bind] using h
            rcases List.mem_cons.mp hx with rfl | hx
            · exact hp
            · exact ih h x hx
    have := hall _ _ h k ((hk k).mpr hm)
    rw [hg] at this
    simp only [bind, Except.bind, Option.getD_some] at this
    have := hall _ _ this v hv
    rw [accepts_complete h20 ha] at this
    cases this

/-- A digest and a plain password side by side. -/
example : tryBind asciiTables toyHash true
    ⟨[], [(bytesKey, [.bytes (sshaDigest toyHash [1] [2]), .bytes [0x6f]])]⟩ (.bytes [0x6f]) = .ok true ∧
  tryBind asciiTables toyHash true
    ⟨[], [(bytesKey, [.bytes (sshaDigest toyHash [1] [2]), .bytes [0x6f]])]⟩ (.bytes [1]) = .ok true ∧
  tryBind asciiTables toyHash true
    ⟨[], [(bytesKey, [.bytes (sshaDigest toyHash [1] [2]), .bytes [0x6f]])]⟩ (.bytes [3]) = .ok false := by
  decide +kernel

end Verif.C19
