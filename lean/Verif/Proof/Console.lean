import Verif.Model.Console
import Verif.Proof.Serde

/-!
# Facts about the console's file format and its commands
-/

namespace Rabe

open Console

/-! ## Hexadecimal text -/

theorem hexVal_hexDigit : ∀ n, n < 16 → hexVal (hexDigit n) = some n := by decide

theorem hexDigit_plain : ∀ n, n < 16 →
    hexDigit n ≠ ' ' ∧ hexDigit n ≠ '\t' ∧ hexDigit n ≠ '\r' ∧ hexDigit n ≠ '\n' := by decide

theorem mem_toHex {bs : Bytes} {c : Char} (h : c ∈ toHex bs) : ∃ n, n < 16 ∧ c = hexDigit n := by
  simp only [toHex, List.mem_flatMap, List.mem_cons, List.not_mem_nil, or_false] at h
  obtain ⟨b, -, rfl | rfl⟩ := h
  · have := b.toNat_lt
    exact ⟨_, by omega, rfl⟩
  · exact ⟨_, Nat.mod_lt _ (by omega), rfl⟩

theorem toHex_plain {bs : Bytes} {c : Char} (h : c ∈ toHex bs) : c ≠ ' ' ∧ c ≠ '\t' ∧ c ≠ '\r' ∧ c ≠ '\n' := by
  obtain ⟨n, hn, rfl⟩ := mem_toHex h
  exact hexDigit_plain n hn

theorem hexPairs_toHex (bs : Bytes) : hexPairs (toHex bs) = some bs := by
  induction bs with
  | nil => rfl
  | cons b bs ih =>
    have hb := b.toNat_lt
    have h1 : b.toNat / 16 < 16 := by omega
    have h2 : b.toNat % 16 < 16 := Nat.mod_lt _ (by omega)
    have e : toHex (b :: bs) = hexDigit (b.toNat / 16) :: hexDigit (b.toNat % 16) :: toHex bs := by simp [toHex]
    rw [e]
    simp only [hexPairs, hexVal_hexDigit _ h1, hexVal_hexDigit _ h2, Option.bind_some, ih, Option.map_some,
      Nat.div_add_mod, UInt8.ofNat_toNat]

theorem fromHex_toHex (bs : Bytes) : fromHex (toHex bs) = some bs := by
  unfold fromHex
  rw [List.filter_eq_self.2]
  · exact hexPairs_toHex bs
  · intro c hc
    obtain ⟨h1, h2, h3, h4⟩ := toHex_plain hc
    simp [h1, h2, h3, h4]

/-! ## Lines -/

theorem linesFrom_line (l r : Str) (hl : '\n' ∉ l) : ∀ acc,
    linesFrom acc (l ++ '\n' :: r) =
      (match l.reverse ++ acc with
        | '\r' :: acc' => acc'.reverse
        | a => a.reverse) :: linesFrom [] r := by
  induction l with
  | nil => intro acc; cases acc with
    | nil => rfl
    | cons c acc =>
      simp only [List.nil_append, linesFrom, if_true, List.reverse_nil]
      congr 1
      split <;> split <;> simp_all
  | cons c l ih =>
    intro acc
    simp only [List.mem_cons, not_or] at hl
    simp only [List.cons_append, linesFrom, if_neg (Ne.symm hl.1), ih hl.2 (c :: acc), List.reverse_cons,
      List.append_assoc, List.nil_append]

theorem linesFrom_plain (l r : Str) (hl : '\n' ∉ l) (hr : '\r' ∉ l) :
    linesFrom [] (l ++ '\n' :: r) = l :: linesFrom [] r := by
  rw [linesFrom_line l r hl]
  simp only [List.append_nil]
  split
  · rename_i acc' h
    exact absurd (by rw [← List.mem_reverse, h]; simp) hr
  · simp

/-- A header line and a footer that starts with a line end (`/repo/rabe-console/src/mod.rs:81-98`). -/
structure Framing (head tail : Str) : Prop where
  head : ∃ l, head = l ++ ['\n'] ∧ '\n' ∉ l ∧ '\r' ∉ l
  tail : ∃ r, tail = '\n' :: r

theorem readRaw_framed {head tail : Str} (h : Framing head tail) (bs : Bytes) :
    readRaw (head ++ toHex bs ++ tail) = .ok (toHex bs) := by
  obtain ⟨⟨l, rfl, h1, h2⟩, ⟨r, rfl⟩⟩ := h
  have e : l ++ ['\n'] ++ toHex bs ++ '\n' :: r = l ++ '\n' :: (toHex bs ++ '\n' :: r) := by simp
  rw [readRaw, e, linesFrom_plain _ _ h1 h2,
    linesFrom_plain _ _ (fun hc => (toHex_plain hc).2.2.2 rfl) (fun hc => (toHex_plain hc).2.2.1 rfl)]
  rfl

/-! ## The console monad -/

section
variable {F G1 G2 Gt α β : Type}

theorem CM.bind_apply (m : CM F G1 G2 Gt α) (f : α → CM F G1 G2 Gt β) (fs : FS) (t : Tape F G1 G2 Gt) :
    (m >>= f) fs t = match m fs t with
      | (.ok a, fs', t') => f a fs' t'
      | (.err, fs', t') => (.err, fs', t')
      | (.panic, fs', t') => (.panic, fs', t') := rfl

theorem CM.pure_apply (a : α) (fs : FS) (t : Tape F G1 G2 Gt) :
    (Pure.pure a : CM F G1 G2 Gt α) fs t = (.ok a, fs, t) := rfl

theorem CM.bind_ok {m : CM F G1 G2 Gt α} {f : α → CM F G1 G2 Gt β} {fs fs' : FS} {t t' : Tape F G1 G2 Gt} {b : β}
    (h : (m >>= f) fs t = (.ok b, fs', t')) :
    ∃ a fs1 t1, m fs t = (.ok a, fs1, t1) ∧ f a fs1 t1 = (.ok b, fs', t') := by
  rw [CM.bind_apply] at h
  split at h
  · rename_i a fs1 t1 hm
    exact ⟨a, fs1, t1, hm, h⟩
  · cases h
  · cases h

theorem CM.bind_of_ok {m : CM F G1 G2 Gt α} {f : α → CM F G1 G2 Gt β} {fs fs1 : FS} {t t1 : Tape F G1 G2 Gt} {a : α}
    (h : m fs t = (.ok a, fs1, t1)) : (m >>= f) fs t = f a fs1 t1 := by
  rw [CM.bind_apply, h]

theorem CM.bind_of_panic {m : CM F G1 G2 Gt α} {f : α → CM F G1 G2 Gt β} {fs fs1 : FS} {t t1 : Tape F G1 G2 Gt}
    (h : m fs t = (.panic, fs1, t1)) : (m >>= f) fs t = (.panic, fs1, t1) := by
  rw [CM.bind_apply, h]

theorem CM.bind_of_err {m : CM F G1 G2 Gt α} {f : α → CM F G1 G2 Gt β} {fs fs1 : FS} {t t1 : Tape F G1 G2 Gt}
    (h : m fs t = (.err, fs1, t1)) : (m >>= f) fs t = (.err, fs1, t1) := by
  rw [CM.bind_apply, h]

theorem CM.lift_ok {r : Res α} {fs fs' : FS} {t t' : Tape F G1 G2 Gt} {a : α}
    (h : CM.lift r fs t = (.ok a, fs', t')) : r = .ok a ∧ fs' = fs ∧ t' = t := by
  simp only [CM.lift, Prod.mk.injEq] at h
  exact ⟨h.1, h.2.1.symm, h.2.2.symm⟩

theorem CM.call_ok {m : RM F G1 G2 Gt α} {fs fs' : FS} {t t' : Tape F G1 G2 Gt} {a : α}
    (h : CM.call m fs t = (.ok a, fs', t')) : m t = .ok (a, t') ∧ fs' = fs := by
  unfold CM.call at h
  split at h
  · rename_i a' t1 hm
    simp only [Prod.mk.injEq, Res.ok.injEq] at h
    obtain ⟨rfl, rfl, rfl⟩ := h
    exact ⟨hm, rfl⟩
  · cases h
  · cases h

theorem CM.callUnwrap_ok {m : RM F G1 G2 Gt α} {fs fs' : FS} {t t' : Tape F G1 G2 Gt} {a : α}
    (h : CM.callUnwrap m fs t = (.ok a, fs', t')) : m t = .ok (a, t') ∧ fs' = fs := by
  unfold CM.callUnwrap at h
  split at h
  · rename_i a' t1 hm
    simp only [Prod.mk.injEq, Res.ok.injEq] at h
    obtain ⟨rfl, rfl, rfl⟩ := h
    exact ⟨hm, rfl⟩
  · cases h
  · cases h

theorem CM.callTry_ok {m : RM F G1 G2 Gt α} {fs fs' : FS} {t t' : Tape F G1 G2 Gt} {o : Option α}
    (h : CM.callTry m fs t = (.ok o, fs', t')) :
    fs' = fs ∧ ((∃ a, o = some a ∧ m t = .ok (a, t')) ∨ (o = none ∧ m t = .err ∧ t' = t)) := by
  unfold CM.callTry at h
  split at h
  · rename_i a' t1 hm
    simp only [Prod.mk.injEq, Res.ok.injEq] at h
    obtain ⟨rfl, rfl, rfl⟩ := h
    exact ⟨rfl, .inl ⟨_, rfl, hm⟩⟩
  · rename_i hm
    simp only [Prod.mk.injEq, Res.ok.injEq] at h
    obtain ⟨rfl, rfl, rfl⟩ := h
    exact ⟨rfl, .inr ⟨rfl, hm, rfl⟩⟩
  · cases h

theorem CM.readToVec_ok {p : Str} {fs fs' : FS} {t t' : Tape F G1 G2 Gt} {b : Bytes}
    (h : CM.readToVec p fs t = (.ok b, fs', t')) : fs.file p = some b ∧ fs' = fs ∧ t' = t := by
  simp only [CM.readToVec, Prod.mk.injEq] at h
  obtain ⟨h, rfl, rfl⟩ := h
  cases hf : fs.file p with
  | none => rw [hf] at h; cases h
  | some x => rw [hf] at h; cases h; exact ⟨rfl, rfl, rfl⟩

theorem CM.writeFile_ok {p content : Str} {fs fs' : FS} {t t' : Tape F G1 G2 Gt}
    (h : CM.writeFile p content fs t = (.ok (), fs', t')) :
    t' = t ∧ fs'.creatable = fs.creatable ∧ p ≠ [] ∧
      fs'.file = fun q => if q = p then some (utf8 content) else fs.file q := by
  unfold CM.writeFile at h
  split at h
  · rename_i hc
    cases h
    refine ⟨rfl, rfl, ?_, rfl⟩
    rintro rfl
    rw [fs.creatable_nil] at hc
    exact Bool.noConfusion hc
  · cases h

theorem CM.writeFile_nil (content : Str) (fs : FS) (t : Tape F G1 G2 Gt) :
    CM.writeFile [] content fs t = (.panic, fs, t) := by
  unfold CM.writeFile
  rw [dif_neg]
  rw [fs.creatable_nil]
  exact Bool.noConfusion

theorem CM.readFile_nil (fs : FS) (t : Tape F G1 G2 Gt) : CM.readFile [] fs t = (.panic, fs, t) := by
  simp [CM.readFile, fs.file_nil]

theorem CM.readFile_none {p : Str} {fs : FS} (h : fs.file p = none) (t : Tape F G1 G2 Gt) :
    CM.readFile p fs t = (.panic, fs, t) := by
  simp [CM.readFile, h]

theorem CM.readFile_utf8 {p s : Str} {fs : FS} (h : fs.file p = some (utf8 s)) (t : Tape F G1 G2 Gt) :
    CM.readFile p fs t = (.ok s, fs, t) := by
  simp [CM.readFile, h, ofUtf8_utf8]

theorem CM.readFile_state (p : Str) (fs : FS) (t : Tape F G1 G2 Gt) :
    ∃ r, CM.readFile p fs t = (r, fs, t) := ⟨_, rfl⟩

end

/-! ## The file format -/

section
variable {F G1 G2 Gt α : Type} [Field F] [AddCommGroup G1] [Module F G1]
  [AddCommGroup G2] [Module F G2] [AddCommGroup Gt] [Module F Gt]

theorem encBytes_ok {con : Con F G1 G2 Gt} {o : Option Bytes} {head tail text : Str}
    (h : encBytes con o head tail = .ok text) :
    ∃ bs, o = some bs ∧ text = head ++ toHex (con.deflate bs) ++ tail := by
  cases o with
  | none => cases h
  | some bs => cases h; exact ⟨bs, rfl, rfl⟩

theorem decText_encBytes (con : Con F G1 G2 Gt) {head tail : Str} (hf : Framing head tail) {o : Option Bytes}
    {text : Str} (h : encBytes con o head tail = .ok text) : ∃ bs, o = some bs ∧ decText con text = .ok bs := by
  obtain ⟨bs, rfl, rfl⟩ := encBytes_ok h
  refine ⟨bs, rfl, ?_⟩
  unfold decText
  rw [readRaw_framed hf]
  simp [fromHex_toHex, con.inflate_deflate]

variable [Borsh α] [Serde α]

/-- Whatever is stored is read back, in both formats. -/
class Stored (α : Type) [Borsh α] [Serde α] : Prop where
  read_ser : ∀ (fmt : Format) (x : α) bs, fmt.ser x = some bs → fmt.read α bs = some x

instance [BorshLaw α] [Serde.SerdeLaw α] [Serde.Depth 127 α] : Stored α where
  read_ser fmt x bs h := by
    cases fmt with
    | borsh => exact tryFromSlice_ser h
    | cbor => exact Serde.fromSlice_toVec h

/-- A file with this content holds these bytes in the console's format. -/
def Holds (con : Con F G1 G2 Gt) (fs : FS) (p : Str) (bs : Bytes) : Prop :=
  ∃ text, fs.file p = some (utf8 text) ∧ decText con text = .ok bs

theorem serDec_state (con : Con F G1 G2 Gt) (p : Str) (fs : FS) (t : Tape F G1 G2 Gt) :
    ∃ r, serDec α con p fs t = (r, fs, t) := by
  unfold serDec
  rw [CM.bind_apply]
  obtain ⟨r, hr⟩ := CM.readFile_state p fs t
  rw [hr]
  cases r with
  | ok s =>
    dsimp only
    rw [CM.bind_apply]
    unfold CM.lift
    cases decText con s with
    | ok b =>
      dsimp only
      cases con.format.read α b with
      | none => exact ⟨_, rfl⟩
      | some a => exact ⟨_, rfl⟩
    | err => exact ⟨_, rfl⟩
    | panic => exact ⟨_, rfl⟩
  | err => exact ⟨_, rfl⟩
  | panic => exact ⟨_, rfl⟩

theorem serDec_missing (con : Con F G1 G2 Gt) {p : Str} {fs : FS} (h : fs.file p = none) (t : Tape F G1 G2 Gt) :
    serDec α con p fs t = (.panic, fs, t) :=
  CM.bind_of_panic (CM.readFile_none h t)

theorem serDec_nil (con : Con F G1 G2 Gt) (fs : FS) (t : Tape F G1 G2 Gt) :
    serDec α con [] fs t = (.panic, fs, t) := serDec_missing con fs.file_nil t

theorem serDec_holds {con : Con F G1 G2 Gt} {p : Str} {fs : FS} {bs : Bytes} (h : Holds con fs p bs)
    (t : Tape F G1 G2 Gt) :
    serDec α con p fs t = (match con.format.read α bs with
      | none => .err
      | some a => .ok a, fs, t) := by
  obtain ⟨text, h1, h2⟩ := h
  unfold serDec
  rw [CM.bind_of_ok (CM.readFile_utf8 h1 t), h2]
  show (CM.lift (.ok bs) >>= _) fs t = _
  rw [CM.bind_of_ok (a := bs) (fs1 := fs) (t1 := t) rfl]
  cases con.format.read α bs with
  | none => rfl
  | some a => rfl

theorem serDec_ok {con : Con F G1 G2 Gt} {p : Str} {fs fs' : FS} {t t' : Tape F G1 G2 Gt} {a : α}
    (h : serDec α con p fs t = (.ok a, fs', t')) : fs' = fs ∧ t' = t := by
  obtain ⟨r, hr⟩ := serDec_state (α := α) con p fs t
  rw [hr] at h
  cases h
  exact ⟨rfl, rfl⟩

theorem encBytes_store {con : Con F G1 G2 Gt} {p : Str} {o : Option Bytes} {head tail : Str} (hf : Framing head tail)
    {fs fs' : FS} {t t' : Tape F G1 G2 Gt}
    (h : (CM.lift (encBytes con o head tail) >>= fun text => CM.writeFile p text) fs t = (.ok (), fs', t')) :
    t' = t ∧ fs'.creatable = fs.creatable ∧ p ≠ [] ∧ (∀ q, q ≠ p → fs'.file q = fs.file q) ∧
      ∃ bs, o = some bs ∧ Holds con fs' p bs := by
  obtain ⟨text, fs1, t1, h1, h2⟩ := CM.bind_ok h
  obtain ⟨he, rfl, rfl⟩ := CM.lift_ok h1
  obtain ⟨rfl, hc, hp, hw⟩ := CM.writeFile_ok h2
  obtain ⟨bs, hbs, hd⟩ := decText_encBytes con hf he
  refine ⟨rfl, hc, hp, fun q hq => by rw [hw]; simp [hq], bs, hbs, text, by rw [hw]; simp, hd⟩

theorem store_ok {con : Con F G1 G2 Gt} {p : Str} {x : α} {head tail : Str} (hf : Framing head tail)
    {fs fs' : FS} {t t' : Tape F G1 G2 Gt} (h : store con p x head tail fs t = (.ok (), fs', t')) :
    t' = t ∧ fs'.creatable = fs.creatable ∧ p ≠ [] ∧ (∀ q, q ≠ p → fs'.file q = fs.file q) ∧
      ∃ bs, con.format.ser x = some bs ∧ Holds con fs' p bs := encBytes_store hf h

theorem storeResult_ok {con : Con F G1 G2 Gt} {p : Str} {x : Option α} {head tail : Str} (hf : Framing head tail)
    {fs fs' : FS} {t t' : Tape F G1 G2 Gt} (h : storeResult con p x head tail fs t = (.ok (), fs', t')) :
    t' = t ∧ fs'.creatable = fs.creatable ∧ p ≠ [] ∧ (∀ q, q ≠ p → fs'.file q = fs.file q) ∧
      ∃ bs, con.format.serResult con.errText x = some bs ∧ Holds con fs' p bs := encBytes_store hf h

theorem store_nil (con : Con F G1 G2 Gt) (x : α) (head tail : Str) (fs : FS) (t : Tape F G1 G2 Gt) :
    store con [] x head tail fs t = (.panic, fs, t) := by
  unfold store
  rw [CM.bind_apply]
  unfold CM.lift
  cases h : serEnc con x head tail with
  | ok s => exact CM.writeFile_nil s fs t
  | err =>
    exfalso
    unfold serEnc encBytes at h
    cases hs : con.format.ser x <;> rw [hs] at h <;> cases h
  | panic => rfl

theorem store_some {con : Con F G1 G2 Gt} {p : Str} {x : α} {head tail : Str} {bs : Bytes} {fs : FS}
    (hs : con.format.ser x = some bs) (hc : fs.creatable p = true) (t : Tape F G1 G2 Gt) :
    ∃ fs', store con p x head tail fs t = (.ok (), fs', t) := by
  unfold store serEnc encBytes
  rw [hs]
  refine ⟨fs.write p (utf8 (head ++ toHex (con.deflate bs) ++ tail)) hc, ?_⟩
  rw [CM.bind_of_ok (a := head ++ toHex (con.deflate bs) ++ tail) (fs1 := fs) (t1 := t) rfl]
  unfold CM.writeFile
  rw [dif_pos hc]

theorem storeResult_some {con : Con F G1 G2 Gt} {p : Str} {x : Option α} {head tail : Str} {bs : Bytes} {fs : FS}
    (hs : con.format.serResult con.errText x = some bs) (hc : fs.creatable p = true) (t : Tape F G1 G2 Gt) :
    ∃ fs', storeResult con p x head tail fs t = (.ok (), fs', t) := by
  unfold storeResult encBytes
  rw [hs]
  refine ⟨fs.write p (utf8 (head ++ toHex (con.deflate bs) ++ tail)) hc, ?_⟩
  rw [CM.bind_of_ok (a := head ++ toHex (con.deflate bs) ++ tail) (fs1 := fs) (t1 := t) rfl]
  unfold CM.writeFile
  rw [dif_pos hc]

theorem Holds.transfer {con : Con F G1 G2 Gt} {fs fs' : FS} {p : Str} {bs : Bytes} (h : Holds con fs p bs)
    (he : fs'.file p = fs.file p) : Holds con fs' p bs := by
  obtain ⟨text, h1, h2⟩ := h
  exact ⟨text, by rw [he, h1], h2⟩

/-- What a successful `serDec` of a file with known bytes returned. -/
theorem serDec_holds_ok {con : Con F G1 G2 Gt} {p : Str} {fs fs' : FS} {bs : Bytes} {t t' : Tape F G1 G2 Gt} {a : α}
    (h : Holds con fs p bs) (hd : serDec α con p fs t = (.ok a, fs', t')) :
    con.format.read α bs = some a ∧ fs' = fs ∧ t' = t := by
  rw [serDec_holds h t] at hd
  cases hs : con.format.read α bs with
  | none => rw [hs] at hd; cases hd
  | some b => rw [hs] at hd; cases hd; exact ⟨rfl, rfl, rfl⟩

theorem serDec_of_ser [Stored α] {con : Con F G1 G2 Gt} {p : Str} {fs : FS} {bs : Bytes} {x : α}
    (hs : con.format.ser x = some bs) (h : Holds con fs p bs) (t : Tape F G1 G2 Gt) :
    serDec α con p fs t = (.ok x, fs, t) := by
  rw [serDec_holds h t, Stored.read_ser _ _ _ hs]

/-- Two objects stored one after another, as at the end of `run_setup` (`/repo/rabe-console/src/mod.rs:546-553`). -/
theorem store2_ok {β : Type} [Borsh β] [Serde β] {con : Con F G1 G2 Gt} {p q : Str} {x : α} {y : β} {h1 e1 h2 e2 : Str}
    (hf1 : Framing h1 e1) (hf2 : Framing h2 e2) (hpq : p ≠ q) {fs fs' : FS} {t t' : Tape F G1 G2 Gt}
    (h : (store con p x h1 e1 >>= fun _ => store con q y h2 e2) fs t = (.ok (), fs', t')) :
    t' = t ∧ fs'.creatable = fs.creatable ∧ (∀ r, r ≠ p → r ≠ q → fs'.file r = fs.file r) ∧
      (∃ bs, con.format.ser x = some bs ∧ Holds con fs' p bs) ∧ ∃ bs, con.format.ser y = some bs ∧ Holds con fs' q bs := by
  obtain ⟨u, fs1, t1, ha, hb⟩ := CM.bind_ok h
  obtain ⟨rfl, hc1, _, ho1, b1, hs1, hh1⟩ := store_ok hf1 ha
  obtain ⟨rfl, hc2, _, ho2, b2, hs2, hh2⟩ := store_ok hf2 hb
  exact ⟨rfl, hc2.trans hc1, fun r hp hq => (ho2 r hq).trans (ho1 r hp),
    ⟨b1, hs1, hh1.transfer (ho2 p hpq)⟩, b2, hs2, hh2⟩

theorem store2_some {β : Type} [Borsh β] [Serde β] {con : Con F G1 G2 Gt} {p q : Str} {x : α} {y : β} {h1 e1 h2 e2 : Str}
    {b1 b2 : Bytes} {fs : FS} (hf1 : Framing h1 e1) (hx : con.format.ser x = some b1) (hy : con.format.ser y = some b2)
    (hp : fs.creatable p = true) (hq : fs.creatable q = true) (t : Tape F G1 G2 Gt) :
    ∃ fs', (store con p x h1 e1 >>= fun _ => store con q y h2 e2) fs t = (.ok (), fs', t) := by
  obtain ⟨fs1, h1'⟩ := store_some (con := con) (head := h1) (tail := e1) hx hp t
  have hc := (store_ok hf1 h1').2.1
  obtain ⟨fs2, h2'⟩ := store_some (con := con) (head := h2) (tail := e2) (fs := fs1) hy (by rw [hc]; exact hq) t
  exact ⟨fs2, by rw [CM.bind_of_ok h1', h2']⟩

end

theorem framing_gp : Framing gpBegin gpEnd :=
  ⟨⟨chars% "-----BEGIN GP-----", rfl, by decide, by decide⟩, ⟨_, rfl⟩⟩
theorem framing_sk : Framing skBegin skEnd :=
  ⟨⟨chars% "-----BEGIN SK-----", rfl, by decide, by decide⟩, ⟨_, rfl⟩⟩
theorem framing_msk : Framing mskBegin mskEnd :=
  ⟨⟨chars% "-----BEGIN MSK-----", rfl, by decide, by decide⟩, ⟨_, rfl⟩⟩
theorem framing_pk : Framing pkBegin pkEnd :=
  ⟨⟨chars% "-----BEGIN PK-----", rfl, by decide, by decide⟩, ⟨_, rfl⟩⟩
theorem framing_ct : Framing ctBegin ctEnd :=
  ⟨⟨chars% "-----BEGIN CT-----", rfl, by decide, by decide⟩, ⟨_, rfl⟩⟩
theorem framing_ska : Framing skaBegin skaEnd :=
  ⟨⟨chars% "-----BEGIN SAK-----", rfl, by decide, by decide⟩, ⟨_, rfl⟩⟩
theorem framing_pka : Framing pkaBegin pkaEnd :=
  ⟨⟨chars% "-----BEGIN PAK-----", rfl, by decide, by decide⟩, ⟨_, rfl⟩⟩
theorem framing_auPk : Framing auPkBegin auPkEnd :=
  ⟨⟨chars% "-----BEGIN PAUK-----", rfl, by decide, by decide⟩, ⟨_, rfl⟩⟩
theorem framing_auSk : Framing auSkBegin auSkEnd :=
  ⟨⟨chars% "-----BEGIN SAUK-----", rfl, by decide, by decide⟩, ⟨_, rfl⟩⟩

end Rabe
