import Verif.Model.Entry
import Verif.Model.Base64
/-
Model of stored passwords, /repo/ldaptor/entry.py.  The hash function is a parameter.
-/
namespace Verif.Password

/-- `b"{SSHA}"` -/
def sshaTag : Bytes := [0x7b, 0x53, 0x53, 0x48, 0x41, 0x7d]

/-- ASCII white space, as stripped by `bytes.rstrip()`. -/
def isSpace (b : UInt8) : Bool := b = 32 || (9 ≤ b && b ≤ 13)

/-- `x.rstrip()` on octets. -/
def rstrip (b : Bytes) : Bytes := (b.reverse.dropWhile isSpace).reverse

/-- entry.py:16-31 `sshaDigest`; `sha1` is the hash of the concatenated updates. -/
def sshaDigest (sha1 : Bytes → Bytes) (passphrase salt : Bytes) : Bytes :=
  sshaTag ++ rstrip (Base64.encodebytes (sha1 (passphrase ++ salt) ++ salt))

/-- `"userPassword"` and `b"userPassword"`, entry.py:39.  The set is iterated in unspecified order; `textFirst` says in
which. -/
def textKey : PyStr := .text "userPassword".toList
def bytesKey : PyStr := .bytes [0x75, 0x73, 0x65, 0x72, 0x50, 0x61, 0x73, 0x73, 0x77, 0x6f, 0x72, 0x64]
def keys (textFirst : Bool) : List PyStr := if textFirst then [textKey, bytesKey] else [bytesKey, textKey]

/-- entry.py:230-240: test one stored value.  A stored value with invalid base64 raises. -/
def accepts (sha1 : Bytes → Bytes) (password : Bytes) (stored : PyStr) : Py Bool :=
  let digest := stored.toBytes
  if sshaTag.isPrefixOf digest then do
    let raw ← Base64.decodebytes (digest.drop sshaTag.length)
    return sshaDigest sha1 password (raw.drop 20) == digest
  else .ok (digest == password)

/-- entry.py:226-241 `_bind`: `true` for success, `false` for LDAPInvalidCredentials. -/
def tryBind (U : Unicode) (sha1 : Bytes → Bytes) (textFirst : Bool) (e : Entry) (password : PyStr) : Py Bool :=
  anyPy (fun k => do
    let r ← e.get U k
    anyPy (accepts sha1 password.toBytes) (r.getD [])) (keys textFirst)

/-- entry.py:283-285: one round of the loop of `setPassword`. -/
def setIfPresent (U : Unicode) (crypt : PyStr) (e : Entry) (k : PyStr) : Py Entry := do
  let b ← e.hasKey U k
  return if b then e.setItem U k [crypt] else e

/-- entry.py:277-287 `setPassword`; the `else` clause of the loop always runs. -/
def setPassword (U : Unicode) (sha1 : Bytes → Bytes) (textFirst : Bool) (e : Entry) (newPasswd salt : Bytes) : Py Entry := do
  let crypt : PyStr := .bytes (sshaDigest sha1 newPasswd salt)
  let e ← (keys textFirst).foldlM (setIfPresent U crypt) e
  return e.setItem U bytesKey [crypt]

end Verif.Password
