import Verif.Model.Ldif
/-
Model of /repo/ldaptor/ldiftree.py: entries stored as a tree of LDIF files, and of the parts of `os` and of the file system
that it uses.

The file system is a finite map from resolved paths to files and directories.  It has no symbolic links, permissions, limits
on the length of names, or other processes; relative paths start at the root; a path resolves as on POSIX systems (`.` and
empty components are dropped, `..` goes up, every component but the last has to be a directory).  `os.listdir` lists the
names in some fixed order.  A sequence of system calls is a list of steps, so that it can be stopped anywhere.
-/
namespace Verif.LdifTree
open Verif.Server (Env)

/-! The file system. -/

/-- A resolved path: the names from the root. -/
abbrev Path := List Str

/-- What a path leads to. -/
inductive Node where
  | dir
  | file (content : Bytes)
  deriving DecidableEq, Repr

/-- The file system; the root is always there. -/
abbrev Fs := List (Path × Node)

/-- What is at a path. -/
def look (fs : Fs) (p : Path) : Option Node := if p = [] then some .dir else (fs.find? (·.1 = p)).map (·.2)

/-- Put something at a path. -/
def set (fs : Fs) (p : Path) (n : Node) : Fs := (p, n) :: fs.filter (·.1 ≠ p)

/-- Take away what is at a path. -/
def erase (fs : Fs) (p : Path) : Fs := fs.filter (·.1 ≠ p)

/-- The exceptions: `OSError` by its `errno`, those of ldiftree.py:17-30, of the LDIF parser, and others. -/
inductive Err where
  | noEnt
  | notDir
  | isDir
  | fileExists
  | notEmpty
  | invalid
  | noEntries
  | multipleEntries
  | noSuchEntry
  | ldif (e : Ldif.Err)
  | py (e : PyErr)
  deriving DecidableEq, Repr

/-- The text between the slashes. -/
def splitSlash : Str → List Str
  | [] => [[]]
  | c :: s =>
    if c = '/' then [] :: splitSlash s
    else
      match splitSlash s with
      | [] => [[c]]
      | p :: ps => (c :: p) :: ps

/-- The components of a path. -/
def parts (s : Str) : List Str := (splitSlash s).filter fun c => c ≠ [] ∧ c ≠ ['.']

/-- Resolve the components of a path from a directory: all but the last have to be directories. -/
def locate (fs : Fs) (at_ : Path) : List Str → Except Err Path
  | [] => .ok at_
  | [c] => .ok (if c = ['.', '.'] then at_.dropLast else at_ ++ [c])
  | c :: cs =>
    if c = ['.', '.'] then locate fs at_.dropLast cs
    else
      match look fs (at_ ++ [c]) with
      | some .dir => locate fs (at_ ++ [c]) cs
      | some (.file _) => .error .notDir
      | none => .error .noEnt

/-- Resolve a path. -/
def resolve (fs : Fs) (s : Str) : Except Err Path := locate fs [] (parts s)

/-- What a path leads to, if it resolves. -/
def stat (fs : Fs) (s : Str) : Option Node :=
  match resolve fs s with
  | .ok p => look fs p
  | .error _ => none

/-- `os.path.exists` -/
def pathExists (fs : Fs) (s : Str) : Bool := (stat fs s).isSome

/-- `os.path.isdir` -/
def isDir (fs : Fs) (s : Str) : Bool :=
  match stat fs s with
  | some .dir => true
  | _ => false

/-- `os.path.isfile` -/
def isFile (fs : Fs) (s : Str) : Bool :=
  match stat fs s with
  | some (.file _) => true
  | _ => false

/-- `open(s, "rb")` and reading to the end. -/
def openRead (fs : Fs) (s : Str) : Except Err Bytes := do
  let p ← resolve fs s
  match look fs p with
  | none => .error .noEnt
  | some .dir => .error .isDir
  | some (.file b) => .ok b

/-- `os.listdir` -/
def listDir (fs : Fs) (s : Str) : Except Err (List Str) := do
  let p ← resolve fs s
  match look fs p with
  | none => .error .noEnt
  | some (.file _) => .error .notDir
  | some .dir => .ok (fs.filterMap fun e => if e.1 ≠ [] ∧ e.1.dropLast = p then e.1.getLast? else none)

/-- The system calls that change something. -/
inductive Step where
  /-- `open(s, "wb")` -/
  | create (s : Str)
  /-- `f.write(...)` to the file opened at `s`; computing the octets may raise -/
  | write (s : Str) (content : Py Bytes)
  /-- `os.rename(s, t)` of a file -/
  | rename (s t : Str)
  /-- `os.mkdir(s)`; the flag says that `EEXIST` is ignored -/
  | mkdir (s : Str) (ignore : Bool)
  /-- `os.remove(s)` -/
  | remove (s : Str)
  deriving DecidableEq

/-- One system call. -/
def apply (fs : Fs) : Step → Except Err Fs
  | .create s => do
    let p ← resolve fs s
    match look fs p with
    | some .dir => .error .isDir
    | _ => .ok (set fs p (.file []))
  | .write s content => do
    let p ← resolve fs s
    match content, look fs p with
    | .error e, _ => .error (.py e)
    | .ok b, some (.file old) => .ok (set fs p (.file (old ++ b)))
    | .ok _, _ => .error .noEnt
  | .rename s t => do
    let p ← resolve fs s
    let q ← resolve fs t
    match look fs p, look fs q with
    | none, _ => .error .noEnt
    | some .dir, _ => .error .isDir
    | some (.file _), some .dir => .error .isDir
    | some (.file b), _ => .ok (set (erase fs p) q (.file b))
  | .mkdir s ignore => do
    let p ← resolve fs s
    match look fs p with
    | none => .ok (set fs p .dir)
    | some _ => if ignore then .ok fs else .error .fileExists
  | .remove s => do
    let p ← resolve fs s
    match look fs p with
    | none => .error .noEnt
    | some .dir => .error .isDir
    | some (.file _) => .ok (erase fs p)

/-- A sequence of system calls. -/
def run (fs : Fs) : List Step → Except Err Fs
  | [] => .ok fs
  | s :: l => do
    let fs ← apply fs s
    run fs l

/-- The states in which a sequence of system calls can stop, because the process dies or because a call raises: between any
two calls, and within a write, after any number of octets. -/
inductive Stopped : Fs → List Step → Fs → Prop
  | here (fs : Fs) (l : List Step) : Stopped fs l fs
  | torn {fs fs' : Fs} {s : Str} {b : Bytes} (n : Nat) (l : List Step) (h : apply fs (.write s (.ok (b.take n))) = .ok fs') :
      Stopped fs (.write s (.ok b) :: l) fs'
  | later {fs fs' fs'' : Fs} {s : Step} {l : List Step} (h : apply fs s = .ok fs') (h' : Stopped fs' l fs'') :
      Stopped fs (s :: l) fs''

/-! Paths. -/

/-- `os.path.join` of two paths. -/
def join (a b : Str) : Str :=
  if ['/'].isPrefixOf b then b
  else if a = [] ∨ a.getLast? = some '/' then a ++ b
  else a ++ '/' :: b

/-- `os.path.join` of a path and any number of others. -/
def joinAll (a : Str) (l : List Str) : Str := l.foldl join a

/-- `"%s.dir" % rdn.getText()` -/
def dirName (r : Dn.Rdn) : Str := r.text ++ ".dir".toList

/-- `"%s.ldif" % rdn.getText()` -/
def ldifName (r : Dn.Rdn) : Str := r.text ++ ".ldif".toList

/-- `os.path.splitext` of a name without slashes: at the last dot, unless only dots precede it. -/
def splitExt (s : Str) : Str × Str :=
  match (s.reverse.dropWhile (· ≠ '.')) with
  | [] => (s, [])
  | _ :: r =>
    if r.all (· = '.') then (s, [])
    else (r.reverse, '.' :: (s.reverse.takeWhile (· ≠ '.')).reverse)

/-! Reading and storing entries. -/

/-- ldiftree.py:61-65: `f.read(8192)` until there is no more; the first argument bounds the number of rounds. -/
def pieces : Nat → Bytes → List Bytes
  | 0, _ => []
  | n + 1, b => if b = [] then [] else b.take 8192 :: pieces n (b.drop 8192)

/-- ldiftree.py:56, 61-75 and 139, 148-161: read the one entry of a file. -/
def readEntry (U : Unicode) (b : Bytes) : Except Err Entry :=
  match Ldif.parseStored U (pieces (b.length + 1) b) with
  | (_, some e) => .error (.ldif e)
  | ([], none) => .error .noEntries
  | ([.entry e], none) => .ok e
  | (_, none) => .error .multipleEntries

/-- ldiftree.py:58-59: where an entry is stored. -/
def entryPath (path : Str) : Dn.Dn → Str
  | [] => path
  | r :: up => join (joinAll path (up.reverse.map dirName)) (ldifName r)

/-- ldiftree.py:49-75 `_get` -/
def get (env : Env) (fs : Fs) (path : Str) (dn : Dn.Dn) : Except Err Entry := do
  if dn = [] then .error (.py .assertionError)
  else
    let b ← openRead fs (entryPath path dn)
    readEntry env.U b

/-- ldiftree.py:80: the temporary file; `uuid` is the random part. -/
def tmpName (fileName uuid : Str) : Str := fileName ++ ['.'] ++ uuid ++ ".tmp".toList

/-- ldiftree.py:78-85 `_putEntry` -/
def putEntry (fileName uuid : Str) (content : Py Bytes) : List Step :=
  [.create (tmpName fileName uuid), .write (tmpName fileName uuid) content,
    .rename (tmpName fileName uuid) (fileName ++ ".ldif".toList)]

/-- ldiftree.py:94-111: the directory of the entry, and whether it has to be made. -/
def parentDir (fs : Fs) (path : Str) : Dn.Dn → Except Err (Str × List Step)
  | [] => .ok (path, [])
  | p :: up =>
    let grandParent := joinAll path (up.reverse.map dirName)
    let dir := join grandParent (dirName p)
    if pathExists fs dir then .ok (dir, [])
    else if pathExists fs (join grandParent (ldifName p)) then .ok (dir, [.mkdir dir true])
    else .error .noSuchEntry

/-- ldiftree.py:88-112 `_put`: the system calls that change something, or the exception before them. -/
def putSteps (env : Env) (fs : Fs) (path uuid : Str) (e : Entry) : Except Err (List Step) :=
  match e.dn with
  | [] => .error (.py .assertionError)
  | r :: up => do
    let (dir, steps) ← parentDir fs path up
    return steps ++ putEntry (join dir r.text) uuid (Ldif.toWire env e)

/-- ldiftree.py:88-112 `_put` -/
def put (env : Env) (fs : Fs) (path uuid : Str) (e : Entry) : Except Err Fs := do
  let steps ← putSteps env fs path uuid e
  run fs steps

/-! The tree of entries. -/

/-- ldiftree.py:120-133: an `LDIFTreeEntry`. -/
structure Handle where
  path : Str
  dn : Dn.Dn
  attrs : Attrs
  deriving DecidableEq, Repr

/-- `self.path[: -len(".dir")]`, after `assert self.path.endswith(".dir")`. -/
def stripDir (path : Str) : Except Err Str :=
  if ".dir".toList.isSuffixOf path then .ok (path.take (path.length - 4)) else .error (.py .assertionError)

/-- ldiftree.py:135-163 `_load` -/
def load (env : Env) (fs : Fs) (path : Str) : Except Err Attrs := do
  let base ← stripDir path
  match openRead fs (base ++ ".ldif".toList) with
  | .error .noEnt => .ok []
  | .error e => .error e
  | .ok b =>
    let e ← readEntry env.U b
    match Server.items env e with
    | .error x => .error (.py x)
    | .ok items => .ok (Tree.buildAttrs env.U items)

/-- ldiftree.py:127-133 `__init__`, without attributes -/
def make (env : Env) (fs : Fs) (path : Str) (dn : Dn.Dn) : Except Err Handle :=
  if dn.text = [] then .ok ⟨path, dn, []⟩
  else do
    let attrs ← load env fs path
    return ⟨path, dn, attrs⟩

/-- ldiftree.py:183-190: the names of the children in a directory listing; `seen` as in the code. -/
def bases : List Str → List Str → List Str
  | _, [] => []
  | seen, fn :: l =>
    if (splitExt fn).2 ≠ ".dir".toList ∧ (splitExt fn).2 ≠ ".ldif".toList then bases seen l
    else if (splitExt fn).1 ∈ seen then bases seen l
    else (splitExt fn).1 :: bases ((splitExt fn).1 :: seen) l

/-- ldiftree.py:192-199: the child for one name. -/
def child (env : Env) (fs : Fs) (h : Handle) (base : Str) : Except Err Handle := do
  match Dn.Rdn.parse env.U base with
  | .error e => .error (.py e)
  | .ok r => make env fs (join h.path (base ++ ".dir".toList)) (r :: h.dn)

/-- ldiftree.py:184-199: the children for all names. -/
def childList (env : Env) (fs : Fs) (h : Handle) : List Str → Except Err (List Handle)
  | [] => .ok []
  | b :: bs => do
    let c ← child env fs h b
    let cs ← childList env fs h bs
    return c :: cs

/-- ldiftree.py:173-200 `_sync_children` -/
def children (env : Env) (fs : Fs) (h : Handle) : Except Err (List Handle) :=
  match listDir fs h.path with
  | .error .noEnt => .ok []
  | .error e => .error e
  | .ok names => childList env fs h (bases [] names)

/-- ldiftree.py:214-233 `lookup`; the first argument bounds the recursion. -/
def lookupLoop (env : Env) (fs : Fs) : Nat → Handle → Dn.Dn → Except Err Handle
  | 0, _, _ => .error (.py .recursionDepth)
  | n + 1, h, dn =>
    if !Dn.Dn.contains env.U h.dn dn then .error (.py .noSuchObject)
    else if Dn.Dn.eq env.U dn h.dn then .ok h
    else if ¬ h.dn.length < dn.length then .error (.py .assertionError)
    else if h.dn ≠ [] ∧ !Dn.Dn.eq env.U (dn.drop (dn.length - h.dn.length)) h.dn then .error (.py .assertionError)
    else
      match dn[dn.length - h.dn.length - 1]? with
      | none => .error (.py .indexError)
      | some r =>
        if !isDir fs (join h.path (dirName r)) && !isFile fs (join h.path (ldifName r)) then .error (.py .noSuchObject)
        else do
          let c ← make env fs (join h.path (dirName r)) (r :: h.dn)
          lookupLoop env fs n c dn

/-- ldiftree.py:214-233 `lookup` -/
def lookup (env : Env) (fs : Fs) (h : Handle) (dn : Dn.Dn) : Except Err Handle := lookupLoop env fs (dn.length + 1) h dn

/-- ldiftree.py:235-253 `_addChild`; the attributes are those of the new entry (entry.py:41-61). -/
def addChild (env : Env) (fs : Fs) (h : Handle) (r : Dn.Rdn) (attrs : Attrs) (uuid : Str) : Except Err (Fs × Handle) := do
  let cs ← children env fs h
  if cs.any fun c => match c.dn with | x :: _ => Dn.Rdn.eq env.U x r | [] => false then .error (.py .alreadyExists)
  else
    let e : Entry := ⟨r :: h.dn, Tree.buildAttrs env.U attrs⟩
    let steps := (if pathExists fs h.path then [] else [.mkdir h.path false]) ++
      putEntry (join h.path r.text) uuid (Ldif.toWire env e)
    let fs' ← run fs steps
    let c ← make env fs' (join h.path (dirName r)) (r :: h.dn)
    return (fs', c)

/-- ldiftree.py:259-269 `_delete` -/
def delete (env : Env) (fs : Fs) (h : Handle) : Except Err Fs := do
  if h.dn.text = [] then .error (.py .cannotRemoveRoot)
  else
    let cs ← children env fs h
    if cs ≠ [] then .error (.py .notAllowedOnNonLeaf)
    else
      let base ← stripDir h.path
      apply fs (.remove (base ++ ".ldif".toList))

/-- ldiftree.py:274-280 `_deleteChild` -/
def deleteChild (env : Env) (fs : Fs) (h : Handle) (r : Dn.Rdn) : Except Err Fs := do
  let cs ← children env fs h
  match cs.find? (fun c => match c.dn with | x :: _ => Dn.Rdn.eq env.U x r | [] => false) with
  | some c => delete env fs c
  | none => .error (.py .noSuchObject)

end Verif.LdifTree
