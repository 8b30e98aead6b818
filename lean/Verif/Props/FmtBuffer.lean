import Verif.Fmt.OpsLemmas

/-!
# Properties of the functions that format to an output (C103 to C105)
-/

namespace Efp
namespace Props

open Efp.Spec.Fmt Efp.Fmt

/-! ## C103 -/

/-- `format_to` a back inserter of a `String` (or another contiguous container) adds exactly the text that `format`
returns to the end, whatever the spare storage of the container held before; what the container had is kept. -/
theorem C103_append (l : List (Option Str × Arg)) (hok : ∀ p ∈ l, ArgOk p.2) (fmt text : Str)
    (h : format fmt l = .ok text) (junk : Nat → Char) (c : Container) (hc : c.size ≤ c.storage.length)
    (hs : c.size + text.length < 2 ^ 64) :
    ∃ c', formatToContainer junk c fmt l = .ok c' ∧ c'.elems = c.elems ++ text := by
  obtain ⟨ops, h1, rfl, hx⟩ := (ops_of_format hok).1 _ h
  obtain ⟨b, h2, h3⟩ := Into.run junk ops hx c hc hs
  exact ⟨b.rest.container, by rw [formatToContainer, h1, Res.bind_ok, h2], h3⟩

/-- `format_to` a pointer into an array that is large enough writes exactly the text there, changes no other byte and
returns the place after the text. -/
theorem C103_pointer (l : List (Option Str × Arg)) (hok : ∀ p ∈ l, ArgOk p.2) (fmt text : Str)
    (h : format fmt l = .ok text) (array : List Char) (off : Nat) (ha : array.length < 2 ^ 64)
    (hs : off + text.length ≤ array.length) :
    formatToPointer array off fmt l =
      .ok (array.take off ++ text ++ array.drop (off + text.length), off + text.length) := by
  obtain ⟨ops, h1, rfl, hx⟩ := (ops_of_format hok).1 _ h
  obtain ⟨b, h2, h3, h4⟩ := Raw.run ops array off ha hs
  rw [formatToPointer, h1, Res.bind_ok, h2]
  simp only [h3, h4, overwrite]

/-- `format_to` any other output iterator gives it the text, byte after byte, and nothing else. -/
theorem C103_iterator (l : List (Option Str × Arg)) (hok : ∀ p ∈ l, ArgOk p.2) (fmt text : Str)
    (h : format fmt l = .ok text) (out : Str) (junk : List Char) (hj : junk.length = bufferSize) (hs : text.length < 2 ^ 64) :
    formatToIterator out junk fmt l = .ok (out ++ text) := by
  obtain ⟨ops, h1, rfl, hx⟩ := (ops_of_format hok).1 _ h
  obtain ⟨b, h2, h3, h4⟩ := Flushing.run ops out none junk hj hs
  rw [formatToIterator, h1, Res.bind_ok, h2]
  simp only [h3, passed]

/-- An error that `format` reports is reported by every one of these functions. -/
theorem C103_error (l : List (Option Str × Arg)) (hok : ∀ p ∈ l, ArgOk p.2) (fmt : Str) (m : String)
    (h : format fmt l = .err m) :
    (∀ junk c, formatToContainer junk c fmt l = .err m) ∧ (∀ array off, formatToPointer array off fmt l = .err m) ∧
    ∀ out junk, formatToIterator out junk fmt l = .err m := by
  have h1 := (ops_of_format hok).2 _ h
  refine ⟨fun _ _ => ?_, fun _ _ => ?_, fun _ _ => ?_⟩
  · rw [formatToContainer, h1]; rfl
  · rw [formatToPointer, h1]; rfl
  · rw [formatToIterator, h1]; rfl

/-- A string "xy" with one spare byte gets "  42|" at its end; its storage is replaced twice. -/
example : (match formatToContainer (fun _ => '?') ⟨['x', 'y', '?', '?'], 2, 0⟩ "{:>4}|".toList [(none, .int 42)] with
    | .ok c => some (c.elems, c.replaced)
    | _ => none) = some ("xy  42|".toList, 2) := by decide +kernel
/-- three bytes into the middle of an array -/
example : formatToPointer "........".toList 2 "{:03}".toList [(none, .int 7)] = .ok ("..007...".toList, 5) := by
  decide +kernel

/-! ## C104 -/

/-- `format_to_n` with a pointer writes exactly the first `n` bytes of the text, or all of it if it is shorter, and no
byte beyond them; it returns the place after what was written, and the length of the whole text. -/
theorem C104_pointer (l : List (Option Str × Arg)) (hok : ∀ p ∈ l, ArgOk p.2) (fmt text : Str)
    (h : format fmt l = .ok text) (array : List Char) (off n : Nat) (ha : off + n ≤ array.length) (hn : n < 2 ^ 64)
    (junk : List Char) (hj : junk.length = bufferSize) (hs : text.length < 2 ^ 64) :
    formatToN array off n junk fmt l =
      .ok (array.take off ++ text.take n ++ array.drop (off + min n text.length), off + min n text.length, text.length) := by
  obtain ⟨ops, h1, rfl, hx⟩ := (ops_of_format hok).1 _ h
  obtain ⟨b, h2, h3, h4, h5⟩ := Fixed.run ops array off n ha hn junk hj hs
  rw [formatToN, h1, Res.bind_ok, h2]
  simp only [h3, h4, h5, overwrite, List.length_take]

/-- With any other output iterator it gives the iterator these bytes. -/
theorem C104_iterator (l : List (Option Str × Arg)) (hok : ∀ p ∈ l, ArgOk p.2) (fmt text : Str)
    (h : format fmt l = .ok text) (out : Str) (n : Nat) (junk : List Char) (hj : junk.length = bufferSize)
    (hs : text.length < 2 ^ 64) :
    formatToNIterator out n junk fmt l = .ok (out ++ text.take n, text.length) := by
  obtain ⟨ops, h1, rfl, hx⟩ := (ops_of_format hok).1 _ h
  obtain ⟨b, h2, h3, h4⟩ := Flushing.run ops out (some n) junk hj hs
  rw [formatToNIterator, h1, Res.bind_ok, h2]
  simp only [h3, h4 nofun, passed]

/-- An error that `format` reports is reported. -/
theorem C104_error (l : List (Option Str × Arg)) (hok : ∀ p ∈ l, ArgOk p.2) (fmt : Str) (m : String)
    (h : format fmt l = .err m) :
    (∀ array off n junk, formatToN array off n junk fmt l = .err m) ∧
    ∀ out n junk, formatToNIterator out n junk fmt l = .err m := by
  have h1 := (ops_of_format hok).2 _ h
  refine ⟨fun _ _ _ _ => ?_, fun _ _ _ => ?_⟩
  · rw [formatToN, h1]; rfl
  · rw [formatToNIterator, h1]; rfl

/-- five bytes of eight -/
example : formatToN "........".toList 1 5 (List.replicate 256 '?') "{}".toList [(none, .int 12345678)] =
    .ok (".12345..".toList, 6, 8) := by decide +kernel
/-- no bytes at all -/
example : formatToNIterator ['a'] 0 (List.replicate 256 '?') "x{}".toList [(none, .int 12)] = .ok (['a'], 3) := by
  decide +kernel

/-! ## C105 -/

/-- `formatted_size` is the length of the text. -/
theorem C105_size (l : List (Option Str × Arg)) (hok : ∀ p ∈ l, ArgOk p.2) (fmt text : Str)
    (h : format fmt l = .ok text) (junk : List Char) (hj : junk.length = bufferSize) (hs : text.length < 2 ^ 64) :
    formattedSize junk fmt l = .ok text.length := by
  obtain ⟨ops, h1, rfl, hx⟩ := (ops_of_format hok).1 _ h
  obtain ⟨b, h2, h3⟩ := Counting.run ops junk hj hs
  rw [formattedSize, h1, Res.bind_ok, h2]
  simp only [h3]

/-- An error that `format` reports is reported. -/
theorem C105_error (l : List (Option Str × Arg)) (hok : ∀ p ∈ l, ArgOk p.2) (fmt : Str) (m : String)
    (h : format fmt l = .err m) (junk : List Char) : formattedSize junk fmt l = .err m := by
  rw [formattedSize, (ops_of_format hok).2 _ h]; rfl

/-- An array of `formatted_size` bytes is large enough for `format_to`, and is filled to its end. -/
theorem C105_fits (l : List (Option Str × Arg)) (hok : ∀ p ∈ l, ArgOk p.2) (fmt text : Str)
    (h : format fmt l = .ok text) (junk : List Char) (hj : junk.length = bufferSize) (hs : text.length < 2 ^ 64) (n : Nat)
    (hn : formattedSize junk fmt l = .ok n) (array : List Char) (ha : array.length = n) :
    formatToPointer array 0 fmt l = .ok (text, n) := by
  rw [C105_size l hok fmt text h junk hj hs] at hn
  cases hn
  rw [C103_pointer l hok fmt text h array 0 (by omega) (by omega)]
  simp [← ha]

/-- a text longer than the buffer of 256 bytes -/
example : formattedSize (List.replicate 256 '?') "{:>300}|".toList [(none, .int 42)] = .ok 301 := by decide +kernel

end Props
end Efp
