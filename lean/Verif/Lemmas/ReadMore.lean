import Verif.Model.PatternsMore
/-!
# What the reader of patterns makes of the texts of `Verif.Model.PatternsMore`
-/
namespace Pawpaw
namespace Patterns
open ReSyntax

/-- What `axis` is read as. -/
def axisSyn : Syn :=
  (.seq (.grp (.named ['o', 'r', 'd', 'e', 'r']) (.rep 0 (some 1) true (.cls false [.one '+', .one '-']))) (.seq (.grp
  (.named ['k', 'e', 'y']) (.alt (.rep 1 (some 4) true (.chr '.')) (.alt (.rep 1 (some 3) true (.chr '*')) (.alt (.seq
  (.chr '>') (.chr '<')) (.alt (.rep 1 (some 3) true (.chr '<')) (.rep 1 (some 3) true (.chr '>'))))))) (.grp (.named
  ['o', 'r', '_', 's', 'e', 'l', 'f']) (.rep 0 (some 1) true (.rep 1 (some 2) true (.chr '!'))))))

/-- What `filter` is read as. -/
def filterSyn : Syn :=
  (.seq (.chr '[') (.seq (.rep 0 (some 1) true (.grp (.named ['n', 'o', 't']) (.chr '~'))) (.seq (.grp (.named ['k'])
  (.rep 1 none true (.cls false [.range 'a' 'z', .one '-']))) (.seq (.chr ':') (.seq (.rep 0 none true (.cls false
  [.space])) (.seq (.grp (.named ['v']) (.rep 1 none false (.any))) (.chr ']')))))))

/-- What `etName` is read as. -/
def etNameSyn : Syn :=
  (.seq (.rep 0 (some 1) true (.grp (.named ['n', 'a', 'm', 'e', 's', 'p', 'a', 'c', 'e']) (.seq (.chr '{') (.seq (.rep
  1 none false (.any)) (.chr '}'))))) (.grp (.named ['n', 'a', 'm', 'e']) (.rep 1 none true (.any))))

/-- What `splitlines` is read as. -/
def splitlinesSyn : Syn :=
  (.alt (.seq (.chr '\x0d') (.chr '\n')) (.alt (.chr '\x0d') (.alt (.chr '\n') (.alt (.chr '\x0b') (.alt (.chr '\x0b')
  (.alt (.chr '\x0c') (.alt (.chr '\x0c') (.alt (.chr '\x1c') (.alt (.chr '\x1d') (.alt (.chr '\x1e') (.alt (.chr
  '\u0085') (.alt (.chr '\u2028') (.chr '\u2029')))))))))))))

/-- What `format` is read as. -/
def formatSyn : Syn :=
  (.seq (.chr '%') (.alt (.grp (.named ['z', 'w', 's']) (.chr '\u0020')) (.alt (.seq (.grp (.named ['d', 'i', 'r'])
  (.alt (.seq (.chr 's') (.seq (.chr 'p') (.seq (.chr 'a') (.chr 'n')))) (.alt (.seq (.chr 's') (.seq (.chr 't') (.seq
  (.chr 'a') (.seq (.chr 'r') (.chr 't'))))) (.seq (.chr 's') (.seq (.chr 't') (.seq (.chr 'o') (.chr 'p'))))))) (.rep 0
  (some 1) true (.seq (.chr ':') (.seq (.rep 0 (some 1) true (.seq (.rep 0 (some 1) true (.grp (.named ['f', 'i', 'l',
  'l']) (.any))) (.grp (.named ['a', 'l', 'i', 'g', 'n']) (.cls false [.one '<', .one '>', .one '=', .one '^'])))) (.seq
  (.rep 0 (some 1) true (.grp (.named ['s', 'i', 'g', 'n']) (.cls false [.one '+', .one '-']))) (.seq (.rep 0 (some 1)
  true (.grp (.named ['h', 'a', 's', 'h']) (.chr '#'))) (.seq (.rep 0 (some 1) true (.grp (.named ['z', 'e', 'r', 'o'])
  (.chr '0'))) (.seq (.rep 0 (some 1) true (.grp (.named ['w', 'i', 'd', 't', 'h']) (.rep 1 none true (.cls false
  [.digit])))) (.seq (.rep 0 (some 1) true (.grp (.named ['g', 'r', 'o', 'u', 'p', 'i', 'n', 'g', '_', 'o', 'p', 't',
  'i', 'o', 'n']) (.cls false [.one '_', .one ',']))) (.rep 0 (some 1) true (.grp (.named ['t', 'y', 'p', 'e']) (.cls
  false [.one 'b', .one 'c', .one 'd', .one 'e', .one 'E', .one 'f', .one 'F', .one 'g', .one 'G', .one 'n', .one 'o',
  .one 's', .one 'x', .one 'X', .one '%'])))))))))))) (.seq (.grp (.named ['d', 'i', 'r']) (.alt (.seq (.chr 'd') (.seq
  (.chr 'e') (.seq (.chr 's') (.chr 'c')))) (.alt (.seq (.chr 's') (.seq (.chr 't') (.seq (.chr 'r') (.seq (.chr 'i')
  (.seq (.chr 'n') (.chr 'g')))))) (.alt (.seq (.chr 's') (.seq (.chr 'u') (.seq (.chr 'b') (.seq (.chr 's') (.seq (.chr
  't') (.chr 'r')))))) (.seq (.chr 'v') (.seq (.chr 'a') (.seq (.chr 'l') (.seq (.chr 'u') (.chr 'e'))))))))) (.seq
  (.rep 0 (some 1) true (.seq (.chr '!') (.seq (.rep 0 (some 1) true (.grp (.named ['l', 's', 'l', 'i', 'c', 'e']) (.rep
  1 none true (.cls false [.digit])))) (.seq (.grp (.named ['c', 'o', 'n', 'v']) (.cls false [.one 'a', .one 'r']))
  (.rep 0 (some 1) true (.grp (.named ['r', 's', 'l', 'i', 'c', 'e']) (.rep 1 none true (.cls false [.digit]))))))))
  (.rep 0 (some 1) true (.seq (.chr ':') (.seq (.rep 0 (some 1) true (.grp (.named ['a', 'b', 'b', 'r', '_', 'p', 'o',
  's']) (.cls false [.one '<', .one '^', .one '>']))) (.seq (.grp (.named ['w', 'i', 'd', 't', 'h']) (.rep 1 none true
  (.cls false [.digit]))) (.rep 0 (some 1) true (.grp (.named ['a', 'b', 'b', 'r']) (.rep 1 none true (.any)))))))))))))

theorem read_axis : read false axis = some axisSyn := by decide +kernel
theorem read_filter : read false Patterns.filter = some filterSyn := by decide +kernel
theorem read_etName : read false etName = some etNameSyn := by decide +kernel
theorem read_splitlines : read false splitlines = some splitlinesSyn := by decide +kernel
theorem read_format : read false Patterns.format = some formatSyn := by decide +kernel

end Patterns
end Pawpaw
