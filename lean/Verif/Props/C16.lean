import Verif.Props.C15
import Verif.Model.Identity
/-
C16  Identity search is immune to filter injection.

Full statement: for every non-empty name the search is "cn equals the name or uid equals the name".  It is false, since
the name is inserted without escaping: `star_matches_all`, and in general any filter can be smuggled in (`injection`).
Proved: the statement for names without filter syntax and tabs (`plain_name_partial`), and for every tab-free name if
the caller escapes it first (`escaped_name_partial`).
-/
namespace Verif.C16
open Verif.FilterText Verif.Spec Verif.Identity

def cn : Str := ['c', 'n']
def uid : Str := ['u', 'i', 'd']
theorem cn_name : AttrName cn := C14.cn_name
theorem uid_name : AttrName uid := ⟨'u', ['i', 'd'], rfl, by decide, by decide⟩

/-- The intended search. -/
def byName (name : Str) : Filter := .or [.equality cn name, .equality uid name]

/-- The full statement. -/
def ExactSearch : Prop := ∀ name, name ≠ [] → parseFilter (defaultSearch name) = .ok (byName name)

/-- The name `*` finds every entry that has a `cn` or a `uid`. -/
theorem star_matches_all : parseFilter (defaultSearch ['*']) = .ok (.or [.present cn, .present uid]) ∧ ¬ ExactSearch := by
  have h : parseFilter (defaultSearch ['*']) = .ok (.or [.present cn, .present uid]) := by decide +kernel
  refine ⟨h, fun H => ?_⟩
  have := H ['*'] (by decide)
  rw [h] at this
  cases this

theorem defaultSearch_eq (name : Str) : defaultSearch name =
    '(' :: '|' :: '(' :: 'c' :: 'n' :: '=' :: (name ++ ')' :: '(' :: 'u' :: 'i' :: 'd' :: '=' :: (name ++ [')', ')'])) := by
  unfold defaultSearch
  rw [show "(|(cn=".toList = ['(', '|', '(', 'c', 'n', '='] by decide,
    show ")(uid=".toList = [')', '(', 'u', 'i', 'd', '='] by decide, show "))".toList = [')', ')'] by decide]
  simp

/-- Escaping the name before the lookup gives the intended search. -/
theorem escaped_name_partial (name : Str) (hne : name ≠ []) (ht : '\t' ∉ name) :
    parseFilter (defaultSearch (escape name)) = .ok (byName name) := by
  have hv : TabFree name := ⟨hne, ht⟩
  have hvalid : Valid TabFree (byName name) := by
    refine .or _ (by simp) ?_
    intro f hf
    simp only [List.mem_cons, List.not_mem_nil, or_false] at hf
    rcases hf with rfl | rfl
    · exact .equality _ _ cn_name hv
    · exact .equality _ _ uid_name hv
  obtain ⟨t, h1, h2⟩ := C14.text_roundtrip_partial _ hvalid
  have : t = defaultSearch (escape name) := by
    rw [defaultSearch_eq]
    simp only [byName, Filter.asText, Filter.asTexts, bind, Except.bind, pure, Except.pure, Except.ok.injEq] at h1
    rw [← h1]
    simp [cn, uid]
  rw [← this]; exact h2

/-- A name without filter syntax gives the intended search. -/
theorem plain_name_partial (name : Str) (hne : name ≠ []) (ht : '\t' ∉ name) (hp : ∀ c ∈ name, c ∉ valueStops) :
    parseFilter (defaultSearch name) = .ok (byName name) := by
  have : escape name = name := by
    clear hne ht
    induction name with
    | nil => rfl
    | cons c s ih =>
      have e : escape (c :: s) = escape [c] ++ escape s := escape_append [c] s
      rw [e, escape_plain (hp c (by simp)), ih (fun x hx => hp x (by simp [hx]))]
      rfl
  have h := escaped_name_partial name hne ht
  rw [this] at h; exact h

example : ("O'Brien, Zoë".toList : Str) ≠ [] ∧ '\t' ∉ "O'Brien, Zoë".toList ∧ ∀ c ∈ "O'Brien, Zoë".toList, c ∉ valueStops := by
  decide

/-- Any valid filter `g` can be smuggled into the search by a suitable name, so that the search also finds everything
`g` finds. -/
theorem injection (g : Filter) (hg : Valid TabFree g) :
    ∃ name fs, parseFilter (defaultSearch name) = .ok (.or fs) ∧ g ∈ fs := by
  obtain ⟨t, ht, _⟩ := C14.text_roundtrip_partial g hg
  have hx : TabFree ['x'] := ⟨by decide, by decide⟩
  let fs : List Filter := [.equality cn ['x'], g, .equality cn ['x'], .equality uid ['x'], g, .equality cn ['x']]
  have hvalid : Valid TabFree (.or fs) := by
    refine .or _ (by simp [fs]) ?_
    intro f hf
    simp only [fs, List.mem_cons, List.not_mem_nil, or_false] at hf
    rcases hf with rfl | rfl | rfl | rfl | rfl | rfl
    · exact .equality _ _ cn_name hx
    · exact hg
    · exact .equality _ _ cn_name hx
    · exact .equality _ _ uid_name hx
    · exact hg
    · exact .equality _ _ cn_name hx
  obtain ⟨u, hu, hp⟩ := C14.text_roundtrip_partial _ hvalid
  refine ⟨['x', ')'] ++ t ++ ['(', 'c', 'n', '=', 'x'], fs, ?_, by simp [fs]⟩
  have : u = defaultSearch (['x', ')'] ++ t ++ ['(', 'c', 'n', '=', 'x']) := by
    have hesc : escape ['x'] = ['x'] := by decide
    rw [defaultSearch_eq]
    simp only [fs, Filter.asText, Filter.asTexts, bind, Except.bind, pure, Except.pure, ht, hesc, Except.ok.injEq] at hu
    rw [← hu]
    simp [cn, uid]
  rw [← this]; exact hp

example : Valid TabFree (.present "objectClass".toList) :=
  .present _ ⟨'o', "bjectClass".toList, rfl, by decide, by decide⟩

/-- A configured template suffers in the same way: `(uid=%(name)s)` with the name `*` is a presence test. -/
theorem template_star : parseFilter (templateSearch [some "(uid=".toList, none, some ")".toList] ['*']) =
    .ok (.present uid) := by decide +kernel

end Verif.C16
