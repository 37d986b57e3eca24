import Verif.Model.Ac17
import Verif.Model.Aw11
import Verif.Model.Bdabe
import Verif.Model.Bsw
import Verif.Model.Lsw
import Verif.Model.Mke08
import Verif.Model.Yct14

/-!
# The examples in the documentation of the schemes

Each example is a program that ends normally or aborts. The plaintext, a fixed text in the documentation, is a parameter.
-/

namespace Rabe

variable {F G1 G2 Gt : Type} [Field F] [DecidableEq F] [AddCommGroup G1] [Module F G1]
  [AddCommGroup G2] [Module F G2] [AddCommGroup Gt] [Module F Gt]

/-- `.unwrap()` on the result of a function that draws random numbers, e.g. `/repo/src/schemes/bsw/mod.rs:19`: an error aborts. -/
def RM.orPanic {α : Type} (m : RM F G1 G2 Gt α) : RM F G1 G2 Gt α := fun s => Res.unwrap (m s)

/-- `assert_eq!(r.unwrap(), plaintext)`, e.g. `/repo/src/schemes/bsw/mod.rs:21`. -/
def assertPlain (r : Res Bytes) (plaintext : Bytes) : RM F G1 G2 Gt Unit := do
  let x ← RM.lift (Res.unwrap r)
  RM.lift (if x = plaintext then .ok () else .panic)

/-- The CP-ABE example, `/repo/src/schemes/ac17/mod.rs:28-37`. -/
def Ac17.docCp (env : Env F G1 G2 Gt) (plaintext : Bytes) : RM F G1 G2 Gt Unit := do
  let x ← Ac17.setup env
  let ct ← (Ac17.cpEncrypt env x.1 (chars% "\"A\" and \"B\"") plaintext .human).orPanic
  let sk ← (Ac17.cpKeygen env x.2 [['A'], ['B']]).orPanic
  assertPlain (Ac17.cpDecrypt env sk ct) plaintext

/-- The KP-ABE example, `/repo/src/schemes/ac17/mod.rs:15-24`. -/
def Ac17.docKp (env : Env F G1 G2 Gt) (plaintext : Bytes) : RM F G1 G2 Gt Unit := do
  let x ← Ac17.setup env
  let ct ← (Ac17.kpEncrypt env x.1 [['A'], ['B']] plaintext).orPanic
  let sk ← (Ac17.kpKeygen env x.2 (chars% "\"A\" and \"B\"") .human).orPanic
  assertPlain (Ac17.kpDecrypt env sk ct) plaintext

/-- The example, `/repo/src/schemes/aw11/mod.rs:13-24`. -/
def Aw11.doc (cm : CaseMap) (env : Env F G1 G2 Gt) (plaintext : Bytes) : RM F G1 G2 Gt Unit := do
  let gk ← Aw11.setup
  let o ← Aw11.authgen cm env gk [['A'], ['B']]
  let a ← RM.lift (Res.unwrapOption o)
  let bob ← RM.lift (Res.unwrap (Aw11.keygen cm env gk a.2 (chars% "bob") [['A']]))
  let ct ← (Aw11.encrypt cm env gk [a.1] (chars% "\"A\" or \"B\"") .human plaintext).orPanic
  assertPlain (Aw11.decrypt env gk bob ct) plaintext

/-- The example, `/repo/src/schemes/bdabe/mod.rs:13-27`. `one` as in `Bdabe.decrypt`. -/
def Bdabe.doc (env : Env F G1 G2 Gt) (one : G1 × G2) (plaintext : Bytes) : RM F G1 G2 Gt Unit := do
  let x ← Bdabe.setup env
  let auth1 ← Bdabe.authgen x.1 x.2 (chars% "auth1")
  let sk ← Bdabe.keygen x.1 auth1 (chars% "u1")
  let attrAPk ← RM.lift (Res.unwrap (Bdabe.requestAttributePk env x.1 auth1 (chars% "auth1::A")))
  let k ← RM.lift (Res.unwrap (Bdabe.requestAttributeSk env sk.pk auth1 (chars% "auth1::A")))
  let ct ← (Bdabe.encrypt env x.1 [attrAPk] (chars% "\"auth1::A\" or \"auth1::B\"") .human plaintext).orPanic
  assertPlain (Bdabe.decrypt env one { sk with skA := sk.skA ++ [k] } ct) plaintext

/-- The example, `/repo/src/schemes/bsw/mod.rs:13-22`. -/
def Bsw.doc (env : Env F G1 G2 Gt) (plaintext : Bytes) : RM F G1 G2 Gt Unit := do
  let x ← Bsw.setup env
  let ct ← (Bsw.encrypt env x.1 (chars% "\"A\" and \"B\"") .human plaintext).orPanic
  let o ← Bsw.keygen env x.1 x.2 [['A'], ['B']]
  let sk ← RM.lift (Res.unwrapOption o)
  assertPlain (Bsw.decrypt env sk ct) plaintext

/-- The example, `/repo/src/schemes/lsw/mod.rs:13-22`. -/
def Lsw.doc (env : Env F G1 G2 Gt) (plaintext : Bytes) : RM F G1 G2 Gt Unit := do
  let x ← Lsw.setup env
  let ct ← (Lsw.encrypt env x.1 [['A'], ['B']] plaintext).orPanic
  let sk ← (Lsw.keygen env x.1 x.2 (chars% "\"B\" or \"C\"") .human).orPanic
  assertPlain (Lsw.decrypt env sk ct) plaintext

/-- The example, `/repo/src/schemes/mke08/mod.rs:13-32`. `one` as in `Mke08.decrypt`. -/
def Mke08.doc (env : Env F G1 G2 Gt) (one : G1 × G2) (plaintext : Bytes) : RM F G1 G2 Gt Unit := do
  let x ← Mke08.setup env
  let sk ← Mke08.keygen x.1 x.2 (chars% "user1")
  let a1 ← Mke08.authgen (chars% "aa1")
  let a2 ← Mke08.authgen (chars% "aa2")
  let pk1 ← RM.lift (Res.unwrap (Mke08.requestAuthorityPk env x.1 (chars% "aa1::A") a1))
  let pk2 ← RM.lift (Res.unwrap (Mke08.requestAuthorityPk env x.1 (chars% "aa2::B") a2))
  let k1 ← RM.lift (Res.unwrap (Mke08.requestAuthoritySk env sk.pk (chars% "aa1::A") a1))
  let k2 ← RM.lift (Res.unwrap (Mke08.requestAuthoritySk env sk.pk (chars% "aa2::B") a2))
  let ct ← (Mke08.encrypt env x.1 [pk1, pk2] (chars% "\"aa1::A\" and \"aa2::B\"") .human plaintext).orPanic
  assertPlain (Mke08.decrypt env one { sk with skA := sk.skA ++ [k1] ++ [k2] } ct) plaintext

/-- The example, `/repo/src/schemes/yct14/mod.rs:22-31`. -/
def Yct14.doc (env : Env F G1 G2 Gt) (plaintext : Bytes) : RM F G1 G2 Gt Unit := do
  let x ← Yct14.setup [['A'], ['B'], ['C']]
  let ct ← (Yct14.encrypt env x.1 [['A'], ['B']] plaintext).orPanic
  let sk ← (Yct14.keygen x.2 (chars% "\"A\" or \"B\"") .human).orPanic
  assertPlain (Yct14.decrypt env sk ct) plaintext

end Rabe
