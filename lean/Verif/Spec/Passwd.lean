import Verif.Model.PyStr
/-
Specification vocabulary for passwd files, as in passwd(5).
-/
namespace Verif.Spec.Passwd

/-- An account. -/
structure Account where
  name : Str
  uid : Str
  gid : Str
  gecos : Str
  home : Str
  shell : Str
  deriving DecidableEq, Repr

/-- Split at a separator. -/
def split (c : Char) : Str → List Str
  | [] => [[]]
  | x :: s => if x = c then [] :: split c s else (split c s).modifyHead (x :: ·)

/-- A line of seven fields, the password being in another file. -/
def readLine (l : Str) : Option Account :=
  match split ':' l with
  | [name, ['x'], uid, gid, gecos, home, shell] => some ⟨name, uid, gid, gecos, home, shell⟩
  | _ => none

/-- The accounts of a file: every line ends in a line feed; lines that are no accounts are passed over. -/
def readFile (s : Str) : List Account := (split '\n' s).filterMap readLine

/-- The line of an account, with its end. -/
def Account.line (a : Account) : Str :=
  a.name ++ ':' :: 'x' :: ':' :: (a.uid ++ ':' :: (a.gid ++ ':' :: (a.gecos ++ ':' :: (a.home ++ ':' :: (a.shell ++ ['\n'])))))

/-- All fields are free of separators. -/
def Account.Clean (a : Account) : Prop :=
  ∀ f ∈ [a.name, a.uid, a.gid, a.gecos, a.home, a.shell], ':' ∉ f ∧ '\n' ∉ f

/-- The entry has the attribute, and this is its first value. -/
def Has (items : List (PyStr × List PyStr)) (name : Str) (v : Str) : Prop := ∃ vs, (PyStr.text name, PyStr.text v :: vs) ∈ items

/-- The entry has no such attribute. -/
def Lacks (items : List (PyStr × List PyStr)) (name : Str) : Prop := ∀ vs, (PyStr.text name, vs) ∉ items

/-- The entry, which is made of text and has every attribute once, describes the account: gecos is the attribute of that name,
else cn, else empty; the shell may be missing. -/
structure Describes (items : List (PyStr × List PyStr)) (a : Account) : Prop where
  text : ∀ p ∈ items, (∃ s, p.1 = .text s) ∧ ∀ v ∈ p.2, ∃ s, v = .text s
  once : (items.map (·.1)).Nodup
  name : Has items "uid".toList a.name
  uid : Has items "uidNumber".toList a.uid
  gid : Has items "gidNumber".toList a.gid
  gecos : Has items "gecos".toList a.gecos ∨ (Lacks items "gecos".toList ∧
    (Has items "cn".toList a.gecos ∨ (Lacks items "cn".toList ∧ a.gecos = [])))
  home : Has items "homeDirectory".toList a.home
  shell : Has items "loginShell".toList a.shell ∨ (Lacks items "loginShell".toList ∧ a.shell = [])

end Verif.Spec.Passwd
