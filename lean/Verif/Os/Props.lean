import Verif.Os.Spec
import Verif.Str.Props
/-!
# C94 (file queries) and C95 (error messages)
-/
namespace Verif.Os
open Verif
open Verif.Str (Byte Fmt blit safeVsprintf)

/-! ### C94 -/

theorem mode_type (k : Kind) (perm : BitVec 12) : (k.bits ||| perm.setWidth 32) &&& 0o170000#32 = k.bits := by
  apply BitVec.eq_of_getLsbD_eq
  intro i hi
  have hk : k.bits.getLsbD i = (decide (12 ≤ i) && k.bits.getLsbD i) := by
    by_cases h : 12 ≤ i
    · simp [h]
    · have : ∀ j : Fin 12, k.bits.getLsbD j = false := by cases k <;> decide
      rw [this ⟨i, by omega⟩]; simp
  have hm : ∀ j : Fin 32, (0o170000#32).getLsbD j = (decide (12 ≤ j.val) && decide (j.val < 16)) := by decide
  have hk2 : ∀ j : Fin 32, k.bits.getLsbD j = (decide (j.val < 16) && k.bits.getLsbD j) := by cases k <;> decide
  rw [BitVec.getLsbD_and, BitVec.getLsbD_or, hm ⟨i, hi⟩, hk2 ⟨i, hi⟩, hk]
  by_cases h1 : 12 ≤ i
  · have : (perm.setWidth 32).getLsbD i = false := by
      rw [BitVec.getLsbD_setWidth, BitVec.getLsbD_of_ge _ _ (by omega)]; simp
    rw [this]
    by_cases h2 : i < 16 <;> simp [h1, h2]
  · simp [h1]

theorem bits_inj {a b : Kind} (h : a.bits = b.bits) : a = b := by
  cases a <;> cases b <;> first | rfl | (revert h; decide)

theorem leads_unique {Path : Type} {fs : FS Path} {n : Nat} {p : Path} {k k' : Kind} {m m' : BitVec 12} (h : Leads fs n p k m) (h' : Leads fs n p k' m') :
    k = k' ∧ m = m' := by
  induction h with
  | here e =>
    cases h' with
    | here e' => rw [e] at e'; cases e'; exact ⟨rfl, rfl⟩
    | follow e' _ => rw [e] at e'; cases e'
  | follow e _ ih =>
    cases h' with
    | here e' => rw [e] at e'; cases e'
    | follow e' h' => rw [e] at e'; cases e'; exact ih h'

/-- C94 (POSIX): for every file system, path and permission bits, `PathExists` holds exactly if the path leads to a file, `IsFile` exactly if that is a regular
file and `IsDirectory` exactly if it is a directory. -/
theorem C94_posix {Path : Type} (limit : Nat) (fs : FS Path) (stat : Path → Option Mode) (h : StatContract limit fs stat) (p : Path) :
    (pathExists (stat p) = true ↔ ∃ k perm, Leads fs limit p k perm) ∧
    (isFile (stat p) = true ↔ ∃ perm, Leads fs limit p .regular perm) ∧
    (isDirectory (stat p) = true ↔ ∃ perm, Leads fs limit p .directory perm) := by
  cases hs : stat p with
  | none =>
    have hn : ∀ k perm, ¬ Leads fs limit p k perm := fun k perm hl => by
      have := (h p _).2 ⟨k, perm, hl, rfl⟩
      rw [hs] at this; cases this
    refine ⟨?_, ?_, ?_⟩
    · simp [pathExists]; exact hn
    · simp [isFile]; exact hn _
    · simp [isDirectory]; exact hn _
  | some m =>
    obtain ⟨k, perm, hl, hm⟩ := (h p m).1 hs
    have key : ∀ k' : Kind, ((m &&& 0o170000#32 == k'.bits) = true) ↔ ∃ perm, Leads fs limit p k' perm := by
      intro k'
      rw [hm, mode_type, beq_iff_eq]
      constructor
      · intro e; rw [← bits_inj e]; exact ⟨perm, hl⟩
      · rintro ⟨perm', hl'⟩; rw [(leads_unique hl hl').1]
    refine ⟨?_, ?_, ?_⟩
    · simp only [pathExists, Option.isSome_some, true_iff]; exact ⟨k, perm, hl⟩
    · rw [← key]; simp only [isFile, sIsReg]; show (if (m &&& 0o170000#32 == 0o100000#32) = true then true else false) = true ↔ (m &&& 0o170000#32 == 0o100000#32) = true
      cases (m &&& 0o170000#32 == 0o100000#32) <;> decide
    · rw [← key]; simp only [isDirectory, sIsDir]
      show (if (m &&& 0o170000#32 == 0o040000#32) = true then true else false) = true ↔ (m &&& 0o170000#32 == 0o040000#32) = true
      cases (m &&& 0o170000#32 == 0o040000#32) <;> decide

/-- C94 (POSIX): whatever `stat` reports, no path is both a file and a directory, and each of the two exists. -/
theorem C94_exclusive (answer : Option Mode) :
    ¬ (isFile answer = true ∧ isDirectory answer = true) ∧ (isFile answer = true → pathExists answer = true) ∧ (isDirectory answer = true → pathExists answer = true) := by
  cases answer with
  | none => simp [isFile, isDirectory]
  | some m =>
    refine ⟨?_, fun _ => rfl, fun _ => rfl⟩
    simp only [isFile, isDirectory, sIsReg, sIsDir, beq_iff_eq]
    rintro ⟨h1, h2⟩
    split at h1
    case isFalse => cases h1
    split at h2
    case isFalse => cases h2
    rename_i e1 e2
    rw [e1] at e2
    revert e2; decide

/-- C94 (Windows): for every attribute word the system returns, a path is a file exactly if the system knows it and neither the directory nor the device bit is set, a
directory exactly if it knows it and of the two only the directory bit is set. -/
theorem C94_windows (attr : Attr) :
    (winPathExists attr = true ↔ attr ≠ 0xFFFFFFFF#32) ∧
    (winIsFile attr = true ↔ attr ≠ 0xFFFFFFFF#32 ∧ attr.getLsbD 4 = false ∧ attr.getLsbD 6 = false) ∧
    (winIsDirectory attr = true ↔ attr ≠ 0xFFFFFFFF#32 ∧ attr.getLsbD 4 = true ∧ attr.getLsbD 6 = false) := by
  have hm : ∀ j : Fin 32, (attrDirectory ||| attrDevice).getLsbD j = (decide (j.val = 4) || decide (j.val = 6)) := by decide
  have hd : ∀ j : Fin 32, attrDirectory.getLsbD j = decide (j.val = 4) := by decide
  have h0 : attr &&& (attrDirectory ||| attrDevice) = 0 ↔ attr.getLsbD 4 = false ∧ attr.getLsbD 6 = false := by
    constructor
    · intro h
      have e : ∀ j : Fin 32, (attr &&& (attrDirectory ||| attrDevice)).getLsbD j = false := by intro j; rw [h]; simp
      have e4 := e 4
      have e6 := e 6
      rw [BitVec.getLsbD_and, hm] at e4 e6
      have e4 : (attr.getLsbD 4 && true) = _ := e4
      have e6 : (attr.getLsbD 6 && true) = _ := e6
      rw [Bool.and_true] at e4 e6
      exact ⟨e4, e6⟩
    · rintro ⟨h4, h6⟩
      apply BitVec.eq_of_getLsbD_eq
      intro i hi
      rw [BitVec.getLsbD_and, hm ⟨i, hi⟩]
      by_cases e4 : i = 4
      · subst e4; rw [h4]; rfl
      · by_cases e6 : i = 6
        · subst e6; rw [h6]; rfl
        · simp [e4, e6]
  have h1 : attr &&& (attrDirectory ||| attrDevice) = attrDirectory ↔ attr.getLsbD 4 = true ∧ attr.getLsbD 6 = false := by
    constructor
    · intro h
      have e : ∀ j : Fin 32, (attr &&& (attrDirectory ||| attrDevice)).getLsbD j = decide (j.val = 4) := by intro j; rw [h]; exact hd j
      have e4 := e 4
      have e6 := e 6
      rw [BitVec.getLsbD_and, hm] at e4 e6
      have e4 : (attr.getLsbD 4 && true) = _ := e4
      have e6 : (attr.getLsbD 6 && true) = _ := e6
      rw [Bool.and_true] at e4 e6
      exact ⟨e4, e6⟩
    · rintro ⟨h4, h6⟩
      apply BitVec.eq_of_getLsbD_eq
      intro i hi
      rw [BitVec.getLsbD_and, hm ⟨i, hi⟩, hd ⟨i, hi⟩]
      by_cases e4 : i = 4
      · subst e4; rw [h4]; rfl
      · by_cases e6 : i = 6
        · subst e6; rw [h6]; rfl
        · simp [e4, e6]
  refine ⟨by simp [winPathExists, invalidAttr], ?_, ?_⟩
  · unfold winIsFile invalidAttr
    by_cases hi : attr = 0xFFFFFFFF#32
    · simp [hi]
    · rw [if_neg hi]
      by_cases hz : attr &&& (attrDirectory ||| attrDevice) = 0
      · rw [if_neg (by simpa using hz)]; exact ⟨fun _ => ⟨hi, h0.1 hz⟩, fun _ => rfl⟩
      · rw [if_pos hz]
        exact ⟨fun h => (by cases h), fun h => (hz (h0.2 h.2)).elim⟩
  · unfold winIsDirectory invalidAttr
    by_cases hi : attr = 0xFFFFFFFF#32
    · simp [hi]
    · rw [if_neg hi, beq_iff_eq, h1]; exact ⟨fun h => ⟨hi, h⟩, fun h => h.2⟩

/-- C94: `CreateDirectory` returns true exactly if it made the directory. Then nothing had that name before, it is now a directory and no other name changed; if it
returns false the file system is as it was. -/
theorem C94_create {Path : Type} (limit : Nat) (fs fs' : FS Path) (p : Path) (rc : Int) (h : MkdirContract fs p rc fs') :
    (createDirectory rc = true → fs p = none ∧ (∀ q, q ≠ p → fs' q = fs q) ∧
      ∀ stat', StatContract limit fs' stat' → isDirectory (stat' p) = true ∧ isFile (stat' p) = false) ∧
    (createDirectory rc = false → fs' = fs) := by
  rcases h with ⟨rfl, h1, ⟨perm, h2⟩, h3⟩ | ⟨rfl, rfl⟩
  · refine ⟨fun _ => ⟨h1, h3, fun stat' hs => ?_⟩, fun h => by cases h⟩
    have hd := (C94_posix limit fs' stat' hs p).2.2.2 ⟨perm, .here h2⟩
    refine ⟨hd, ?_⟩
    cases hf : isFile (stat' p) with
    | false => rfl
    | true => exact ((C94_exclusive _).1 ⟨hf, hd⟩).elim
  · exact ⟨fun h => (by cases h), fun _ => rfl⟩

/-- A file system with a regular file, a directory, a link to the directory and a dangling link, and the answers of `stat` that meet the contract. -/
def demoFs : FS (Fin 5) := fun p => match p with
  | 0 => some (.node .regular 0o644#12)
  | 1 => some (.node .directory 0o755#12)
  | 2 => some (.link 1)
  | 3 => some (.link 4)
  | 4 => none

def demoStat : Fin 5 → Option Mode := fun p => match p with
  | 0 => some 0o100644#32
  | 1 => some 0o040755#32
  | 2 => some 0o040755#32
  | _ => none

example : StatContract 40 demoFs demoStat ∧ isFile (demoStat 0) = true ∧ isDirectory (demoStat 2) = true ∧ pathExists (demoStat 3) = false := by
  have e0 : demoFs 0 = some (.node .regular 0o644#12) := rfl
  have e1 : demoFs 1 = some (.node .directory 0o755#12) := rfl
  have e2 : demoFs 2 = some (.link 1) := rfl
  have e3 : demoFs 3 = some (.link 4) := rfl
  have e4 : demoFs 4 = none := rfl
  refine ⟨?_, by decide, by decide, rfl⟩
  have none4 : ∀ {n : Nat} {k : Kind} {m : BitVec 12}, ¬ Leads demoFs n 4 k m := by
    intro n k m h
    cases h with
    | here e => rw [e4] at e; cases e
    | follow e _ => rw [e4] at e; cases e
  intro p m
  match p with
  | 0 =>
    constructor
    · intro h; cases h; exact ⟨.regular, 0o644#12, .here e0, by decide⟩
    · rintro ⟨k, perm, h, rfl⟩
      obtain ⟨rfl, rfl⟩ := leads_unique h (.here e0); decide
  | 1 =>
    constructor
    · intro h; cases h; exact ⟨.directory, 0o755#12, .here e1, by decide⟩
    · rintro ⟨k, perm, h, rfl⟩
      obtain ⟨rfl, rfl⟩ := leads_unique h (.here e1); decide
  | 2 =>
    constructor
    · intro h; cases h; exact ⟨.directory, 0o755#12, .follow e2 (.here e1), by decide⟩
    · rintro ⟨k, perm, h, rfl⟩
      cases h with
      | here e => rw [e2] at e; cases e
      | follow e h => rw [e2] at e; cases e; obtain ⟨rfl, rfl⟩ := leads_unique h (.here e1); decide
  | 3 =>
    constructor
    · intro h; cases h
    · rintro ⟨k, perm, h, rfl⟩
      cases h with
      | here e => rw [e3] at e; cases e
      | follow e h => rw [e3] at e; cases e; exact (none4 h).elim
  | 4 =>
    constructor
    · intro h; cases h
    · rintro ⟨k, perm, h, rfl⟩; exact (none4 h).elim

/-- A directory with the read-only and hidden bits, a device, an archive file and a path the system does not know. -/
example : winIsDirectory 0x13#32 = true ∧ winIsFile 0x40#32 = false ∧ winIsDirectory 0x50#32 = false ∧ winIsFile 0x20#32 = true ∧ winIsFile 0xFFFFFFFF#32 = false := by decide

/-! ### C95 -/

/-- C95 in full: for every error code, every reply the platform may give and every buffer with room for `max ≥ 1` bytes, nothing outside those bytes is written and they
hold a terminated text: as much as fits of the system's message, if it has one. -/
def MessageCorrect : Prop :=
  ∀ (code : BitVec 32) (reply : Reply) (buffer : List Byte) (max : Nat), 0 < max → max ≤ buffer.length → buffer.length < 2 ^ 63 → reply.Possible max →
    ∃ b, formatSystemErrorCode code reply buffer max = .ok b ∧ b.length = buffer.length ∧ b.drop max = buffer.drop max ∧ (∃ n, n < max ∧ b[n]? = some 0) ∧
      ∀ t, reply.text = some t → t.length < 2 ^ 31 → t.take (max - 1) ++ [0] <+: b

/-- C95 does not hold: where `strerror_r` is the POSIX one its failure is ignored, and the buffer may be left without a terminator. -/
theorem C95_message_refuted : ¬ MessageCorrect := by
  intro h
  obtain ⟨b, h1, -, -, ⟨n, hn, hb⟩, -⟩ := h 34#32 (.posixFails []) [120, 121] 2 (by decide) (by decide) (by decide) trivial
  have : b = [120, 121] := by
    have e : formatSystemErrorCode 34#32 (.posixFails []) [120, 121] 2 = .ok [120, 121] := by decide
    rw [e] at h1; injection h1 with h1; exact h1.symm
  subst this
  match n, hb with
  | 0, hb => cases hb
  | 1, hb => cases hb
  | n + 2, _ => omega

theorem fill_text {buffer t : List Byte} {max : Nat} (hmax : max ≤ buffer.length) (ht : t.length < max) :
    ∃ b, fill buffer (t ++ [0]) = .ok b ∧ b.length = buffer.length ∧ b.drop max = buffer.drop max ∧ (∃ n, n < max ∧ b[n]? = some 0) ∧ t.take (max - 1) ++ [0] <+: b := by
  refine ⟨_, if_neg (by simp; omega), Str.blit_length (by simp; omega), Str.blit_drop (by simp; omega), ⟨t.length, ht, ?_⟩, ?_⟩
  · rw [blit, List.getElem?_append_left (by simp), List.getElem?_append_right (Nat.le_refl _)]; simp
  · rw [List.take_of_length_le (by omega)]; exact ⟨_, rfl⟩

/-- C95, unless the POSIX `strerror_r` fails. What is missing: that case, in which nothing is known of the buffer. -/
theorem C95_message_partial (code : BitVec 32) (reply : Reply) (buffer : List Byte) (max : Nat) (hmax : 0 < max) (hroom : max ≤ buffer.length)
    (hobj : buffer.length < 2 ^ 63) (hp : reply.Possible max) (hx : ∀ g, reply ≠ .posixFails g) :
    ∃ b, formatSystemErrorCode code reply buffer max = .ok b ∧ b.length = buffer.length ∧ b.drop max = buffer.drop max ∧ (∃ n, n < max ∧ b[n]? = some 0) ∧
      ∀ t, reply.text = some t → t.length < 2 ^ 31 → t.take (max - 1) ++ [0] <+: b := by
  have hmod : max % 2 ^ 32 ≤ max := Nat.mod_le _ _
  cases reply with
  | gnuBuffer t =>
    obtain ⟨b, h1, h2, h3, h4, h5⟩ := fill_text (t := t.take (max - 1)) hroom (by simp; omega)
    refine ⟨b, by simp only [formatSystemErrorCode]; rw [if_neg (by omega)]; exact h1, h2, h3, h4, fun t' e _ => ?_⟩
    cases e
    rwa [List.take_take, Nat.min_self] at h5
  | gnuOwn t =>
    obtain ⟨b, n, h1, h2, h3, h4, h5, h6⟩ := Str.C30_safeVsprintf (.text t) buffer max hmax hroom hobj
    refine ⟨b, by simp only [formatSystemErrorCode, h1, bind, Except.bind], h3, h5, ⟨n, h2, h4⟩, fun t' e ht => ?_⟩
    cases e
    rw [(h6 t rfl ht).2]
    exact ⟨_, rfl⟩
  | posix t =>
    obtain ⟨b, h1, h2, h3, h4, h5⟩ := fill_text (t := t) hroom hp
    exact ⟨b, h1, h2, h3, h4, fun t' e _ => by cases e; exact h5⟩
  | posixFails g => exact (hx g rfl).elim
  | windows t =>
    have ht : t.length < max := by have h : t.length < max % 2 ^ 32 := hp; omega
    obtain ⟨b, h1, h2, h3, h4, h5⟩ := fill_text (t := t) hroom ht
    exact ⟨b, h1, h2, h3, h4, fun t' e _ => by cases e; exact h5⟩
  | windowsFails g =>
    have hf : fill buffer (g.take (max % 2 ^ 32)) = .ok (blit buffer (g.take (max % 2 ^ 32))) := if_neg (by simp; omega)
    have hl : (blit buffer (g.take (max % 2 ^ 32))).length = buffer.length := Str.blit_length (by simp; omega)
    have hd : (blit buffer (g.take (max % 2 ^ 32))).drop max = buffer.drop max := Str.blit_drop (by simp; omega)
    obtain ⟨b, n, h1, h2, h3, h4, h5, -⟩ := Str.C30_safeVsprintf (.text (codeText code)) (blit buffer (g.take (max % 2 ^ 32))) max hmax (by omega) (by omega)
    refine ⟨b, by simp only [formatSystemErrorCode, hf, h1, bind, Except.bind], by omega, by rw [h5, hd], ⟨n, h2, h4⟩, fun t e _ => by cases e⟩

theorem hex_digit (n : Nat) (h : n < 16) : IsHex (hexDigit n) ∧ hexValue (hexDigit n) = n := by
  have : ∀ k : Fin 16, IsHex (hexDigit k) ∧ hexValue (hexDigit k) = k := by decide
  exact this ⟨n, h⟩

/-- C95: if Windows has no message, the buffer holds as much as fits of "error code " and eight hexadecimal digits that spell the code. -/
theorem C95_windows_fallback (code : BitVec 32) (g buffer : List Byte) (max : Nat) (hmax : 0 < max) (hroom : max ≤ buffer.length) (hobj : buffer.length < 2 ^ 63) :
    ∃ b ds, formatSystemErrorCode code (.windowsFails g) buffer max = .ok b ∧ ds.length = 8 ∧ (∀ d ∈ ds, IsHex d) ∧ hexNumber ds = code.toNat ∧
      (bytes "error code " ++ ds).take (max - 1) ++ [0] <+: b := by
  have hmod : max % 2 ^ 32 ≤ max := Nat.mod_le _ _
  have hf : fill buffer (g.take (max % 2 ^ 32)) = .ok (blit buffer (g.take (max % 2 ^ 32))) := if_neg (by simp; omega)
  have hl : (blit buffer (g.take (max % 2 ^ 32))).length = buffer.length := Str.blit_length (by simp; omega)
  obtain ⟨b, n, h1, h2, h3, h4, h5, h6⟩ := Str.C30_safeVsprintf (.text (codeText code)) (blit buffer (g.take (max % 2 ^ 32))) max hmax (by omega) (by omega)
  refine ⟨b, [7, 6, 5, 4, 3, 2, 1, 0].map (fun i => hexDigit (code.toNat / 16 ^ i % 16)), by simp only [formatSystemErrorCode, hf, h1, bind, Except.bind], rfl, ?_, ?_, ?_⟩
  · intro d hd
    obtain ⟨i, -, rfl⟩ := List.mem_map.1 hd
    exact (hex_digit _ (Nat.mod_lt _ (by decide))).1
  · have hc := code.isLt
    simp only [hexNumber, List.map_cons, List.map_nil, List.foldl_cons, List.foldl_nil, (hex_digit _ (Nat.mod_lt _ (by decide : 0 < 16))).2]
    omega
  · have e : bytes "error code " ++ [7, 6, 5, 4, 3, 2, 1, 0].map (fun i => hexDigit (code.toNat / 16 ^ i % 16)) = codeText code := by
      have : bytes "error code " = [101, 114, 114, 111, 114, 32, 99, 111, 100, 101, 32] := by decide
      rw [this]; rfl
    rw [e, (h6 _ rfl (by simp [codeText])).2]
    exact ⟨_, rfl⟩

/-- C95: a length of zero is accepted: nothing is written, unless Windows or POSIX report a success they cannot have. -/
theorem C95_zero (code : BitVec 32) (reply : Reply) (buffer : List Byte) (hp : reply.Possible 0) : formatSystemErrorCode code reply buffer 0 = .ok buffer := by
  cases reply with
  | gnuBuffer t => rfl
  | gnuOwn t => rfl
  | posix t => cases hp
  | posixFails g => simp [formatSystemErrorCode, fill, blit]
  | windows t => exact absurd (show t.length < 0 % 2 ^ 32 from hp) (by simp)
  | windowsFails g => simp [formatSystemErrorCode, fill, blit, bind, Except.bind, safeVsprintf]

/-- "error code 0000001f" in 20 bytes, and cut short in 14. -/
example : formatSystemErrorCode 31#32 (.windowsFails [7, 7]) (List.replicate 21 9) 20 =
      .ok [101, 114, 114, 111, 114, 32, 99, 111, 100, 101, 32, 48, 48, 48, 48, 48, 48, 49, 102, 0, 9] ∧
    formatSystemErrorCode 31#32 (.gnuOwn [69, 77, 76, 73, 78, 75]) [9, 9, 9, 9, 9] 4 = .ok [69, 77, 76, 0, 9] := by decide

end Verif.Os
