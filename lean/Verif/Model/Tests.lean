import Verif.Model.Docs
import Verif.Model.Ghw11

/-!
# The unit tests of the modules `bsw` and `ghw11`

Each test is a program that ends normally or aborts. The plaintext, a fixed text in the tests, is a parameter.
-/

namespace Rabe

variable {F G1 G2 Gt : Type} [Field F] [DecidableEq F] [AddCommGroup G1] [Module F G1]
  [AddCommGroup G2] [Module F G2] [AddCommGroup Gt] [Module F Gt]

/-- `assert_eq!(r.is_ok(), false)`, e.g. `/repo/src/schemes/bsw/mod.rs:355`. -/
def assertErr {α : Type} (r : Res α) : RM F G1 G2 Gt Unit :=
  RM.lift (match r with | .ok _ => .panic | .err => .ok () | .panic => .panic)

/-- What all tests of the module except the last have in common, e.g. `/repo/src/schemes/bsw/mod.rs:326-356`: the policy and the two
lists of attributes are parameters. `assert_eq!(_match.is_ok(), true)` is contained in the `unwrap` of the next line. -/
def Bsw.test (env : Env F G1 G2 Gt) (policy : Str) (matching notMatching : List Str) (plaintext : Bytes) :
    RM F G1 G2 Gt Unit := do
  let x ← Bsw.setup env
  let ct ← (Bsw.encrypt env x.1 policy .json plaintext).orPanic
  let o ← Bsw.keygen env x.1 x.2 matching
  let sk ← RM.lift (Res.unwrapOption o)
  assertPlain (Bsw.decrypt env sk ct) plaintext
  let o' ← Bsw.keygen env x.1 x.2 notMatching
  let sk' ← RM.lift (Res.unwrapOption o')
  assertErr (Bsw.decrypt env sk' ct)

/-- Policy and attributes of `or`, `/repo/src/schemes/bsw/mod.rs:326-356`, also `/repo/src/schemes/ghw11/mod.rs:311-354`. -/
def testOr : Str × List Str × List Str :=
  (chars% "{\"name\": \"or\", \"children\": [{\"name\": \"A\"}, {\"name\": \"B\"}]}", [['D'], ['B']], [['C'], ['D']])

/-- Policy and attributes of `and10`, `/repo/src/schemes/bsw/mod.rs:359-400`, also `/repo/src/schemes/ghw11/mod.rs:395-448`. The text
is built in a loop. -/
def testAnd10 : Str × List Str × List Str :=
  ((chars% "{\"name\": \"and\", \"children\": [") ++ ((List.range' 1 10).flatMap fun n =>
      (chars% "{\"name\": \"attr") ++ natStr n ++ (if n < 10 then (chars% "\"}, ") else (chars% "\"}]"))) ++ ['}'],
    (List.range' 1 10).map fun n => (chars% "attr") ++ natStr n, [(chars% "attr201"), (chars% "attr200")])

/-- Policy and attributes of `nested`, `/repo/src/schemes/bsw/mod.rs:403-438`. The text is built in a loop; `attr[_i - 1]` is the name
`a` with the number `_i`. -/
def testNested : Str × List Str × List Str :=
  ((List.range' 3 27).foldl (fun policy i =>
      (chars% "{\"name\":\"and\", \"children\":[") ++ (chars% "{\"name\":\"") ++ ('a' :: natStr i) ++ (chars% "\"},") ++
        policy ++ (chars% "]}"))
      (chars% "{\"name\":\"and\", \"children\": [{\"name\": \"a2\"}, {\"name\": \"a1\"}]}"),
    (List.range' 1 30).map fun i => 'a' :: natStr i, [['x'], ['y']])

/-- Policy and attributes of `or3`, `/repo/src/schemes/bsw/mod.rs:441-469`. -/
def testOr3 : Str × List Str × List Str :=
  (chars% "{\"name\": \"or\", \"children\": [{\"name\": \"X\"}, {\"name\": \"Y\"}, {\"name\": \"A\"}]}", [['A']], [['B'], ['C']])

/-- Policy and attributes of `and`, `/repo/src/schemes/bsw/mod.rs:472-497`. -/
def testAnd : Str × List Str × List Str :=
  (chars% "{\"name\": \"and\", \"children\":  [{\"name\": \"A\"}, {\"name\": \"B\"}]}", [['A'], ['B'], ['C']], [['A'], ['D']])

/-- Policy and attributes of `dual_attributes`, `/repo/src/schemes/bsw/mod.rs:500-524`. -/
def testDual : Str × List Str × List Str :=
  (chars% "{\"name\": \"or\", \"children\": [{\"name\": \"and\", \"children\":  [{\"name\": \"A\"}, {\"name\": \"B\"}]}, {\"name\": \"and\", \"children\":  [{\"name\": \"B\"}, {\"name\": \"C\"}]}]}",
    [['A'], ['B']], [['A'], ['C']])

/-- Policy and attributes of `and3`, `/repo/src/schemes/bsw/mod.rs:527-553`. -/
def testAnd3 : Str × List Str × List Str :=
  (chars% "{\"name\": \"and\", \"children\":  [{\"name\": \"A\"}, {\"name\": \"B\"}, {\"name\": \"C\"}]}", [['A'], ['B'], ['C']],
    [['A'], ['D']])

/-- Policy and attributes of `or_and`, `/repo/src/schemes/bsw/mod.rs:556-576`. -/
def testOrAnd : Str × List Str × List Str :=
  (chars% "{\"name\": \"or\", \"children\": [{\"name\": \"and\", \"children\":  [{\"name\": \"A\"}, {\"name\": \"B\"}]}, {\"name\": \"and\", \"children\":  [{\"name\": \"C\"}, {\"name\": \"D\"}]}]}",
    [['A'], ['B'], ['C'], ['D']], [['A'], ['C']])

/-- The test `delegate_ab`, `/repo/src/schemes/bsw/mod.rs:579-601`. -/
def Bsw.testDelegate (env : Env F G1 G2 Gt) (plaintext : Bytes) : RM F G1 G2 Gt Unit := do
  let x ← Bsw.setup env
  let ct ← (Bsw.encrypt env x.1 (chars% "{\"name\": \"and\", \"children\":  [{\"name\": \"A\"}, {\"name\": \"B\"}]}") .json
    plaintext).orPanic
  let o ← Bsw.keygen env x.1 x.2 [['A'], ['B'], ['C']]
  let sk ← RM.lift (Res.unwrapOption o)
  let o' ← Bsw.delegate env x.1 sk [['A'], ['B']]
  let del ← RM.lift (Res.unwrapOption o')
  assertPlain (Bsw.decrypt env del ct) plaintext

/-- What the tests `or` and `and10` have in common, `/repo/src/schemes/ghw11/mod.rs:311-354`, `395-448`. -/
def Ghw11.test (env : Env F G1 G2 Gt) (policy : Str) (matching notMatching : List Str) (plaintext : Bytes) :
    RM F G1 G2 Gt Unit := do
  let x ← Ghw11.setup env
  let o ← Ghw11.keygen env x.1 x.2 matching
  let sk ← RM.lift (Res.unwrapOption o)
  let o' ← Ghw11.keygen env x.1 x.2 notMatching
  let sk' ← RM.lift (Res.unwrapOption o')
  let ct ← (Ghw11.encrypt env x.1 policy .json plaintext).orPanic
  let w ← Ghw11.tkgen sk
  let k ← RM.lift (Res.unwrapOption w)
  let w' ← Ghw11.tkgen sk'
  let k' ← RM.lift (Res.unwrapOption w')
  let pct ← RM.lift (Res.unwrap (Ghw11.transform env ct k.1))
  assertErr (Ghw11.transform env ct k'.1)
  assertPlain (Ghw11.decryptOut env pct k.2 ct.data) plaintext

/-- The test `and2`, `/repo/src/schemes/ghw11/mod.rs:357-391`. The conversion of the plaintext to a string for the output at its end
is left out. -/
def Ghw11.testAnd2 (env : Env F G1 G2 Gt) (plaintext : Bytes) : RM F G1 G2 Gt Unit := do
  let x ← Ghw11.setup env
  let o ← Ghw11.keygen env x.1 x.2 [(chars% "attr0"), (chars% "attr1")]
  let sk ← RM.lift (Res.unwrapOption o)
  let ct ← (Ghw11.encrypt env x.1 (chars% "{\"name\": \"and\", \"children\": [{\"name\": \"attr0\"}, {\"name\": \"attr1\"}]}") .json
    plaintext).orPanic
  let w ← Ghw11.tkgen sk
  let k ← RM.lift (Res.unwrapOption w)
  let pct ← RM.lift (Res.unwrap (Ghw11.transform env ct k.1))
  assertPlain (Ghw11.decryptOut env pct k.2 ct.data) plaintext

end Rabe
