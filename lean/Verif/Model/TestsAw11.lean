import Verif.Model.Tests

/-!
# The unit tests of the module `aw11`

As in `Verif.Model.Tests`: each test is a program, and the plaintext is a parameter.
-/

namespace Rabe.Aw11

variable {F G1 G2 Gt : Type} [Field F] [DecidableEq F] [AddCommGroup G1] [Module F G1]
  [AddCommGroup G2] [Module F G2] [AddCommGroup Gt] [Module F Gt]

/-- The test `and`, `/repo/src/schemes/aw11/mod.rs:398-434`. -/
def testAnd (cm : CaseMap) (env : Env F G1 G2 Gt) (plaintext : Bytes) : RM F G1 G2 Gt Unit := do
  let gk ← setup
  let o1 ← authgen cm env gk [['A'], ['B'], ['C']]
  let a1 ← RM.lift (Res.unwrapOption o1)
  let o2 ← authgen cm env gk [['D'], ['E'], ['F']]
  let _ ← RM.lift (Res.unwrapOption o2)
  let o3 ← authgen cm env gk [['G'], ['H'], ['I']]
  let a3 ← RM.lift (Res.unwrapOption o3)
  let bob ← RM.lift (Res.unwrap (keygen cm env gk a3.2 (chars% "bob") [['H'], ['I']]))
  let bob' ← RM.lift (Res.unwrap (addToAttribute cm env gk a1.2 ['B'] bob))
  let ct ← (encrypt cm env gk [a3.1, a1.1] (chars% "{\"name\": \"and\", \"children\": [{\"name\": \"H\"}, {\"name\": \"B\"}]}")
    .json plaintext).orPanic
  assertPlain (decrypt env gk bob' ct) plaintext

/-- What the other tests do first, e.g. `/repo/src/schemes/aw11/mod.rs:480-515`: two authorities, a key with `A` from the first and
with the attributes `adds` from the second, each of which is added by a call that aborts on an error, and the ciphertext. -/
def testTwo (cm : CaseMap) (env : Env F G1 G2 Gt) (adds : List Str) (policy : Str) (plaintext : Bytes) :
    RM F G1 G2 Gt (Res Bytes) := do
  let gk ← setup
  let o1 ← authgen cm env gk [['A'], ['B']]
  let a1 ← RM.lift (Res.unwrapOption o1)
  let o2 ← authgen cm env gk [['C'], ['D']]
  let a2 ← RM.lift (Res.unwrapOption o2)
  let bob ← RM.lift (Res.unwrap (keygen cm env gk a1.2 (chars% "bob") [['A']]))
  let bob' ← RM.lift (Res.foldR (fun sk a => Res.unwrap (addToAttribute cm env gk a2.2 a sk)) bob adds)
  let ct ← (encrypt cm env gk [a2.1, a1.1] policy .json plaintext).orPanic
  pure (decrypt env gk bob' ct)

/-- The test `or`, `/repo/src/schemes/aw11/mod.rs:437-475`. -/
def testOr (cm : CaseMap) (env : Env F G1 G2 Gt) (plaintext : Bytes) : RM F G1 G2 Gt Unit := do
  let r ← testTwo cm env [['C']] (chars% "{\"name\": \"or\", \"children\": [{\"name\": \"B\"}, {\"name\": \"C\"}]}") plaintext
  assertPlain r plaintext

/-- The test `or_and`, `/repo/src/schemes/aw11/mod.rs:478-521`. -/
def testOrAnd (cm : CaseMap) (env : Env F G1 G2 Gt) (plaintext : Bytes) : RM F G1 G2 Gt Unit := do
  let r ← testTwo cm env [['C'], ['D']]
    (chars% "{\"name\": \"or\", \"children\": [{\"name\": \"B\"}, {\"name\": \"and\", \"children\": [{\"name\": \"C\"}, {\"name\": \"D\"}]}]}")
    plaintext
  assertPlain r plaintext

/-- The test `not`, `/repo/src/schemes/aw11/mod.rs:524-560`. -/
def testNot (cm : CaseMap) (env : Env F G1 G2 Gt) (plaintext : Bytes) : RM F G1 G2 Gt Unit := do
  let r ← testTwo cm env [['D']]
    (chars% "{\"name\": \"or\", \"children\": [{\"name\": \"B\"}, {\"name\": \"and\", \"children\": [{\"name\": \"C\"}, {\"name\": \"A\"}]}]}")
    plaintext
  assertErr r

end Rabe.Aw11
