import Verif.Common.Mem

/-!
# Values of the registry (C201)

`SetRegistryValue`, `SetRegistryValue64`, `GetRegistryValue`, `GetRegistryValueDWORD` and `GetRegistryValueQWORD`, `/repo/bss-util/bss_util.cpp:196-306`. The registry below the given
root is a function from key names to the values of the key; the functions of Windows (`RegCreateKeyExW`, `RegSetValueExW`, `RegOpenKeyExW`, `RegQueryValueExW`) are modelled after their
documentation. `may` tells for which keys access is granted. Bytes are numbers below 256.
-/

namespace Verif.Sys.RegValue

abbrev Name := List Nat

/-- A value: its type and its bytes. -/
structure RVal where
  type : Nat
  data : List Nat
  deriving DecidableEq

/-- The registry: keys that exist, with their values. -/
abbrev Reg := Name → Option (Name → Option RVal)

/-- `REG_SZ`, `REG_DWORD` and `REG_QWORD`. -/
def REG_SZ : Nat := 1
def REG_DWORD : Nat := 4
def REG_QWORD : Nat := 11

/-- The first `n` bytes of a number, the lowest first. -/
def bytes : Nat → Nat → List Nat
  | 0, _ => []
  | n + 1, x => x % 256 :: bytes n (x / 256)

/-- The number that has these bytes. -/
def number : List Nat → Nat
  | [] => 0
  | b :: l => b + 256 * number l

/-- `r_setregvalue` with `RegCreateKeyExW` and `RegSetValueExW`, `bss_util.cpp:196-220`: the result and the registry. The key is made if there is none. -/
def setRaw (may : Name → Bool) (r : Reg) (key name : Name) (v : RVal) : Bool × Reg :=
  if may key then
    (true, fun k => if k = key then some (fun n => if n = name then some v else ((r key).bind fun vs => vs n)) else r k)
  else (false, r)

/-- `SetRegistryValueW` with a number, `bss_util.cpp:240-247`. -/
def set32 (may : Name → Bool) (r : Reg) (key name : Name) (x : Int) : Bool × Reg :=
  if key = [] then (false, r) else setRaw may r key name ⟨REG_DWORD, bytes 4 (x % 2 ^ 32).toNat⟩

/-- `SetRegistryValue64W`, `bss_util.cpp:252-259`. -/
def set64 (may : Name → Bool) (r : Reg) (key name : Name) (x : Int) : Bool × Reg :=
  if key = [] then (false, r) else setRaw may r key name ⟨REG_QWORD, bytes 8 (x % 2 ^ 64).toNat⟩

/-- `n` bytes from the start of a block of memory; `none` is an access behind it. -/
def readBytes : Nat → List Nat → Option (List Nat)
  | 0, _ => some []
  | _ + 1, [] => none
  | n + 1, b :: l => (readBytes n l).map (b :: ·)

/-- `SetRegistryValueW` with a string, `bss_util.cpp:227-234`; the memory of the string is its characters and the zero. `none` is an access behind it. -/
def setStr (may : Name → Bool) (r : Reg) (key name : Name) (s : List Nat) : Option (Bool × Reg) :=
  if key = [] then some (false, r)
  else if may key then (readBytes ((s.length + 1) * 2) (s ++ [0])).map fun d => setRaw may r key name ⟨REG_SZ, d⟩
  else some (false, r)

/-- The results of `RegQueryValueExW`. -/
inductive Status
  | success
  | moreData
  | notFound
  deriving DecidableEq

/-- `RegQueryValueExW` with a buffer: the status, the type (as it was, if there is no such value), the buffer, and the size. -/
def query (vs : Name → Option RVal) (name : Name) (type : Nat) (buf : List Nat) : Status × Nat × List Nat × Nat :=
  match vs name with
  | none => (.notFound, type, buf, buf.length)
  | some v =>
    if v.data.length ≤ buf.length then (.success, v.type, v.data ++ buf.drop v.data.length, v.data.length)
    else (.moreData, v.type, buf, v.data.length)

/-- `GetRegistryValueW`, `bss_util.cpp:261-271`: the result and the buffer. `none`: the key cannot be opened, and the handle that is tested was never set. -/
def getRaw (may : Name → Bool) (r : Reg) (key name : Name) (buf : List Nat) : Option (Int × List Nat) :=
  match (if may key then r key else none) with
  | none => none
  | some vs =>
    match query vs name 0 buf with
    | (.success, _, b, sz) => some (sz, b)
    | (.moreData, _, b, sz) => some (sz, b)
    | (.notFound, _, b, _) => some (-1, b)

/-- `GetRegistryValueDWORDW` and `GetRegistryValueQWORDW`, `bss_util.cpp:276-288, 293-305`, for the type `ty`. The buffer is the number. -/
def getNum (may : Name → Bool) (ty : Nat) (r : Reg) (key name : Name) (buf : List Nat) : Option (Int × List Nat) :=
  match (if may key then r key else none) with
  | none => none
  | some vs =>
    match query vs name 0 buf with
    | (st, t, b, _) => some (if t ≠ ty then -3 else if st = .success then 0 else -1, b)

/-! ## Specification -/

/-- The value of a name in a key. -/
def value (r : Reg) (key name : Name) : Option RVal := (r key).bind fun vs => vs name

/-! ## Lemmas -/

theorem bytes_length : ∀ n x, (bytes n x).length = n
  | 0, _ => rfl
  | n + 1, x => by simp [bytes, bytes_length n]

theorem number_bytes : ∀ n x, x < 256 ^ n → number (bytes n x) = x
  | 0, x, h => by simp [bytes, number] at *; omega
  | n + 1, x, h => by
    have : x / 256 < 256 ^ n := by rw [Nat.pow_succ] at h; omega
    rw [bytes, number, number_bytes n _ this]; omega

theorem readBytes_none : ∀ n (l : List Nat), l.length < n → readBytes n l = none
  | 0, _, h => by omega
  | n + 1, [], _ => rfl
  | n + 1, b :: l, h => by
    rw [readBytes, readBytes_none n l (by simpa using h)]; rfl

theorem value_setRaw (may : Name → Bool) (r : Reg) (key name : Name) (v : RVal) (h : may key = true) (k n : Name) :
    value (setRaw may r key name v).2 k n = if k = key ∧ n = name then some v else value r k n := by
  simp only [setRaw, h, if_true, value]
  by_cases hk : k = key
  · subst hk
    by_cases hn : n = name
    · simp [hn]
    · simp [hn]
  · simp [hk]

theorem mod_lt32 (x : Int) : (x % 2 ^ 32).toNat < 256 ^ 4 := by
  have : x % 2 ^ 32 < 2 ^ 32 := Int.emod_lt_of_pos _ (by decide)
  have : (256 : Nat) ^ 4 = 4294967296 := by decide
  omega

theorem mod_lt64 (x : Int) : (x % 2 ^ 64).toNat < 256 ^ 8 := by
  have : x % 2 ^ 64 < 2 ^ 64 := Int.emod_lt_of_pos _ (by decide)
  have : (256 : Nat) ^ 8 = 18446744073709551616 := by decide
  omega

/-- What reading a number gives, in terms of the value. -/
theorem getNum_value (may : Name → Bool) (ty : Nat) (r : Reg) (key name : Name) (buf : List Nat) (hm : may key = true) (hk : r key ≠ none) (hty : ty ≠ 0) :
    getNum may ty r key name buf = some (match value r key name with
      | none => (-3, buf)
      | some v => (if v.type ≠ ty then -3 else if v.data.length ≤ buf.length then 0 else -1,
          if v.data.length ≤ buf.length then v.data ++ buf.drop v.data.length else buf)) := by
  obtain ⟨vs, hv⟩ := Option.ne_none_iff_exists'.1 hk
  simp only [getNum, hm, if_true, hv, value, Option.bind_some]
  cases hn : vs name with
  | none => simp [query, hn, Ne.symm hty]
  | some v => by_cases hl : v.data.length ≤ buf.length <;> simp [query, hn, hl]

/-! ## C201 -/

/-- **C201**: a 32-bit number that is stored is read back, as the unsigned number of the same bits. -/
theorem C201_dword (may : Name → Bool) (r : Reg) (key name : Name) (x : Int) (hk : key ≠ []) (hm : may key = true) (buf : List Nat) (hb : buf.length = 4) :
    (set32 may r key name x).1 = true ∧
    ∃ b, getNum may REG_DWORD (set32 may r key name x).2 key name buf = some (0, b) ∧ (number b : Int) = x % 2 ^ 32 := by
  have e : set32 may r key name x = setRaw may r key name ⟨REG_DWORD, bytes 4 (x % 2 ^ 32).toNat⟩ := by simp [set32, hk]
  rw [e]
  refine ⟨by simp [setRaw, hm], bytes 4 (x % 2 ^ 32).toNat, ?_, ?_⟩
  · rw [getNum_value may _ _ key name buf hm (by simp [setRaw, hm]) (by decide), value_setRaw may r key name _ hm]
    simp [bytes_length, hb]
  · rw [number_bytes 4 _ (mod_lt32 x)]
    have := Int.emod_nonneg x (show (2 : Int) ^ 32 ≠ 0 by decide)
    omega

/-- **C201**: a 64-bit number that is stored is read back, as the unsigned number of the same bits. -/
theorem C201_qword (may : Name → Bool) (r : Reg) (key name : Name) (x : Int) (hk : key ≠ []) (hm : may key = true) (buf : List Nat) (hb : buf.length = 8) :
    (set64 may r key name x).1 = true ∧
    ∃ b, getNum may REG_QWORD (set64 may r key name x).2 key name buf = some (0, b) ∧ (number b : Int) = x % 2 ^ 64 := by
  have e : set64 may r key name x = setRaw may r key name ⟨REG_QWORD, bytes 8 (x % 2 ^ 64).toNat⟩ := by simp [set64, hk]
  rw [e]
  refine ⟨by simp [setRaw, hm], bytes 8 (x % 2 ^ 64).toNat, ?_, ?_⟩
  · rw [getNum_value may _ _ key name buf hm (by simp [setRaw, hm]) (by decide), value_setRaw may r key name _ hm]
    simp [bytes_length, hb]
  · rw [number_bytes 8 _ (mod_lt64 x)]
    have := Int.emod_nonneg x (show (2 : Int) ^ 64 ≠ 0 by decide)
    omega

/-- **C201**: storing a number changes no other value, and nothing if it fails. -/
theorem C201_frame (may : Name → Bool) (r : Reg) (key name k n : Name) (x : Int) (h : k ≠ key ∨ n ≠ name) :
    value (set32 may r key name x).2 k n = value r k n ∧ value (set64 may r key name x).2 k n = value r k n ∧
    ((set32 may r key name x).1 = false → (set32 may r key name x).2 = r) ∧ ((set64 may r key name x).1 = false → (set64 may r key name x).2 = r) := by
  have hne : ¬(k = key ∧ n = name) := fun hc => by
    rcases h with h | h
    · exact h hc.1
    · exact h hc.2
  have raw : ∀ v, value (setRaw may r key name v).2 k n = value r k n ∧ ((setRaw may r key name v).1 = false → (setRaw may r key name v).2 = r) := by
    intro v
    by_cases hm : may key = true
    · exact ⟨by rw [value_setRaw may r key name v hm, if_neg hne], fun h => by simp [setRaw, hm] at h⟩
    · simp [setRaw, hm]
  by_cases hk : key = []
  · simp [set32, set64, hk]
  · simp only [set32, set64, hk, if_false]
    exact ⟨(raw _).1, (raw _).1, (raw _).2, (raw _).2⟩

/-- **C201**: reading a number from a key that exists succeeds exactly if there is a value of its type that is not longer than it; otherwise the result is -3 for no value or
another type, and -1 for a longer one. -/
theorem C201_exact (may : Name → Bool) (ty : Nat) (hty : ty = REG_DWORD ∨ ty = REG_QWORD) (r : Reg) (key name : Name) (buf : List Nat) (hm : may key = true) (hk : r key ≠ none) :
    ∃ res b, getNum may ty r key name buf = some (res, b) ∧
      (res = 0 ↔ ∃ v, value r key name = some v ∧ v.type = ty ∧ v.data.length ≤ buf.length) ∧
      (res = -3 ↔ ∀ v, value r key name = some v → v.type ≠ ty) ∧
      (res = -1 ↔ ∃ v, value r key name = some v ∧ v.type = ty ∧ buf.length < v.data.length) := by
  rw [getNum_value may ty r key name buf hm hk (by rcases hty with rfl | rfl <;> decide)]
  cases hv : value r key name with
  | none => exact ⟨-3, buf, rfl, by simp, by simp, by simp⟩
  | some v =>
    refine ⟨_, _, rfl, ?_⟩
    by_cases h1 : v.type = ty <;> by_cases h2 : v.data.length ≤ buf.length <;> simp [h1, h2] <;> omega

/-- **C201**: `GetRegistryValue` gives the length of the value, and the bytes if the buffer is large enough; a buffer that is too small is left alone; -1 if there is no value. -/
theorem C201_raw (may : Name → Bool) (r : Reg) (key name : Name) (buf : List Nat) (hm : may key = true) (hk : r key ≠ none) :
    ∃ res b, getRaw may r key name buf = some (res, b) ∧ b.length = buf.length ∧
      (res = -1 ↔ value r key name = none) ∧
      ∀ v, value r key name = some v → res = v.data.length ∧ (v.data.length ≤ buf.length → b.take v.data.length = v.data) ∧ (buf.length < v.data.length → b = buf) := by
  obtain ⟨vs, hv⟩ := Option.ne_none_iff_exists'.1 hk
  simp only [getRaw, hm, if_true, hv, query, value, Option.bind_some]
  cases hn : vs name with
  | none => exact ⟨-1, buf, rfl, rfl, by simp, by simp⟩
  | some v =>
    by_cases hl : v.data.length ≤ buf.length
    · refine ⟨v.data.length, v.data ++ buf.drop v.data.length, by simp [hl], by simp; omega, by simp, ?_⟩
      intro w hw
      simp only [Option.some.injEq] at hw
      subst hw
      exact ⟨rfl, fun _ => by simp, fun h => by omega⟩
    · refine ⟨v.data.length, buf, by simp [hl], rfl, by simp, ?_⟩
      intro w hw
      simp only [Option.some.injEq] at hw
      subst hw
      exact ⟨rfl, fun h => by omega, fun _ => rfl⟩

/-- Storing any string reads behind the end of its memory. -/
theorem C201_string_counterexample (may : Name → Bool) (r : Reg) (key name : Name) (s : List Nat) (hk : key ≠ []) (hm : may key = true) : setStr may r key name s = none := by
  rw [setStr, if_neg hk, if_pos hm, readBytes_none _ _ (by simp)]; rfl

/-- Reading from a key that does not exist tests a handle that was never set. -/
theorem C201_missing_counterexample (may : Name → Bool) (r : Reg) (key name : Name) (buf : List Nat) (h : r key = none) (ty : Nat) :
    getRaw may r key name buf = none ∧ getNum may ty r key name buf = none := by
  simp [getRaw, getNum, h]

/-- A failed read of a 64-bit number changes the variable if there is a shorter value of another type. -/
theorem C201_overwritten_counterexample (may : Name → Bool) (r : Reg) (key name : Name) (hk : key ≠ []) (hm : may key = true) :
    ∃ b, getNum may REG_QWORD (set32 may r key name 1).2 key name (bytes 8 0) = some (-3, b) ∧ number b = 1 := by
  have e : set32 may r key name 1 = setRaw may r key name ⟨REG_DWORD, bytes 4 1⟩ := by simp [set32, hk]
  refine ⟨[1, 0, 0, 0, 0, 0, 0, 0], ?_, by decide⟩
  rw [e, getNum_value may _ _ key name _ hm (by simp [setRaw, hm]) (by decide), value_setRaw may r key name _ hm]
  simp only [and_self, if_true]
  decide

example : getNum (fun _ => true) REG_DWORD (set32 (fun _ => true) (fun _ => none) [83] [65] (-2)).2 [83] [65] [0, 0, 0, 0] = some (0, [254, 255, 255, 255]) := by decide

end Verif.Sys.RegValue
