import Verif.Model.Mutant
/-! The bytes of a text. `Text` is a list of characters; where the program looks at bytes, a byte is
written as the character with its number. -/
namespace CM

/-- The bytes of a character in UTF-8 (the encoding of `str` and, on Unix, of the paths of
`Utf8Path`). -/
def utf8Bytes (c : Char) : List Nat :=
  let n := c.toNat
  if n < 128 then [n]
  else if n < 2048 then [192 + n / 64, 128 + n % 64]
  else if n < 65536 then [224 + n / 4096, 128 + n / 64 % 64, 128 + n % 64]
  else [240 + n / 262144, 128 + n / 4096 % 64, 128 + n / 64 % 64, 128 + n % 64]

/-- The bytes of a character, each as a character. -/
def utf8Char (c : Char) : Text := (utf8Bytes c).map Char.ofNat

/-- The bytes of a text, each as a character. -/
def utf8 (t : Text) : Text := t.flatMap utf8Char

end CM
