import Verif.Model.Patterns
/-!
# What the reader of patterns makes of the texts of the library

`read` of every text in `Verif.Model.Patterns`, written out; the equations are checked by evaluation in the kernel.
-/
namespace Pawpaw
namespace Patterns
open ReSyntax

/-- What `canonical` is read as. -/
def canonicalSyn : Syn :=
  .seq
  (.bos)
  (.seq
        (.rep 0 (some 1) true (.grp (.numbered) (.seq (.cls false [.range '1' '9']) (.seq (.rep 0 none true (.cls
     false [.range '0' '9'])) (.chr '!')))))
    (.seq
            (.grp (.numbered) (.alt (.chr '0') (.seq (.cls false [.range '1' '9']) (.rep 0 none true (.cls false
       [.range '0' '9'])))))
      (.seq
                (.rep 0 none true (.grp (.numbered) (.seq (.chr '.') (.grp (.numbered) (.alt (.chr '0') (.seq (.cls
         false [.range '1' '9']) (.rep 0 none true (.cls false [.range '0' '9']))))))))
        (.seq
                    (.rep 0 (some 1) true (.grp (.numbered) (.seq (.grp (.numbered) (.alt (.chr 'a') (.alt (.chr 'b')
           (.seq (.chr 'r') (.chr 'c'))))) (.grp (.numbered) (.alt (.chr '0') (.seq (.cls false [.range '1' '9'])
           (.rep 0 none true (.cls false [.range '0' '9']))))))))
          (.seq
                        (.rep 0 (some 1) true (.grp (.numbered) (.seq (.chr '.') (.seq (.chr 'p') (.seq (.chr 'o')
             (.seq (.chr 's') (.seq (.chr 't') (.grp (.numbered) (.alt (.chr '0') (.seq (.cls false [.range '1' '9'])
             (.rep 0 none true (.cls false [.range '0' '9']))))))))))))
            (.seq
                            (.rep 0 (some 1) true (.grp (.numbered) (.seq (.chr '.') (.seq (.chr 'd') (.seq (.chr 'e')
               (.seq (.chr 'v') (.grp (.numbered) (.alt (.chr '0') (.seq (.cls false [.range '1' '9']) (.rep 0 none
               true (.cls false [.range '0' '9'])))))))))))
                            (.seq (.rep 0 (some 1) true (.seq (.chr '+') (.seq (.rep 1 none true (.cls false [.range
               'a' 'z', .range '0' '9'])) (.rep 0 none true (.seq (.cls false [.one '-', .one '_', .one '.']) (.rep 1
               none true (.cls false [.range 'a' 'z', .range '0' '9']))))))) (.eos))))))))

/-- What `parse` is read as. -/
def parseSyn : Syn :=
  .seq
  (.bos)
  (.seq
    (.rep 0 none true (.cls false [.space]))
    (.seq
      (.rep 0 (some 1) true (.chr 'v'))
      (.seq
        (.seq
                    (.rep 0 (some 1) true (.seq (.grp (.named ['e', 'p', 'o', 'c', 'h']) (.rep 1 none true (.cls false
           [.range '0' '9']))) (.chr '!')))
          (.seq
                        (.grp (.named ['r', 'e', 'l', 'e', 'a', 's', 'e']) (.seq (.rep 1 none true (.cls false [.range
             '0' '9'])) (.rep 0 none true (.seq (.chr '.') (.rep 1 none true (.cls false [.range '0' '9']))))))
            (.seq
              (.rep
                0
                (some 1)
                true
                (.grp
                  (.named ['p', 'r', 'e'])
                  (.seq
                    (.rep 0 (some 1) true (.cls false [.one '-', .one '_', .one '.']))
                    (.seq
                      (.grp
                        (.named ['p', 'r', 'e', '_', 'l'])
                        (.alt
                          (.chr 'a')
                          (.alt
                            (.chr 'b')
                            (.alt
                              (.chr 'c')
                              (.alt
                                (.seq (.chr 'r') (.chr 'c'))
                                (.alt
                                  (.seq (.chr 'a') (.seq (.chr 'l') (.seq (.chr 'p') (.seq (.chr 'h') (.chr 'a')))))
                                                                    (.alt (.seq (.chr 'b') (.seq (.chr 'e') (.seq
                                   (.chr 't') (.chr 'a')))) (.alt (.seq (.chr 'p') (.seq (.chr 'r') (.chr 'e'))) (.seq
                                   (.chr 'p') (.seq (.chr 'r') (.seq (.chr 'e') (.seq (.chr 'v') (.seq (.chr 'i')
                                   (.seq (.chr 'e') (.chr 'w')))))))))))))))
                                            (.seq (.rep 0 (some 1) true (.cls false [.one '-', .one '_', .one '.']))
                       (.rep 0 (some 1) true (.grp (.named ['p', 'r', 'e', '_', 'n']) (.rep 1 none true (.cls false
                       [.range '0' '9'])))))))))
              (.seq
                (.rep
                  0
                  (some 1)
                  true
                  (.grp
                    (.named ['p', 'o', 's', 't'])
                    (.alt
                                            (.seq (.chr '-') (.grp (.named ['p', 'o', 's', 't', '_', 'n', '1']) (.rep
                       1 none true (.cls false [.range '0' '9']))))
                      (.seq
                        (.rep 0 (some 1) true (.cls false [.one '-', .one '_', .one '.']))
                                                (.seq (.grp (.named ['p', 'o', 's', 't', '_', 'l']) (.alt (.seq (.chr
                         'p') (.seq (.chr 'o') (.seq (.chr 's') (.chr 't')))) (.alt (.seq (.chr 'r') (.seq (.chr 'e')
                         (.chr 'v'))) (.chr 'r')))) (.seq (.rep 0 (some 1) true (.cls false [.one '-', .one '_', .one
                         '.'])) (.rep 0 (some 1) true (.grp (.named ['p', 'o', 's', 't', '_', 'n', '2']) (.rep 1 none
                         true (.cls false [.range '0' '9']))))))))))
                                (.rep 0 (some 1) true (.grp (.named ['d', 'e', 'v']) (.seq (.rep 0 (some 1) true (.cls
                 false [.one '-', .one '_', .one '.'])) (.seq (.grp (.named ['d', 'e', 'v', '_', 'l']) (.seq (.chr
                 'd') (.seq (.chr 'e') (.chr 'v')))) (.seq (.rep 0 (some 1) true (.cls false [.one '-', .one '_', .one
                 '.'])) (.rep 0 (some 1) true (.grp (.named ['d', 'e', 'v', '_', 'n']) (.rep 1 none true (.cls false
                 [.range '0' '9'])))))))))))))
                (.seq (.rep 0 (some 1) true (.seq (.chr '+') (.grp (.named ['l', 'o', 'c', 'a', 'l']) (.seq (.rep 1
         none true (.cls false [.range 'a' 'z', .range '0' '9'])) (.rep 0 none true (.seq (.cls false [.one '-', .one
         '_', .one '.']) (.rep 1 none true (.cls false [.range 'a' 'z', .range '0' '9'])))))))) (.seq (.rep 0 none
         true (.cls false [.space])) (.eos))))))

/-- What `xmlExtractTag` is read as. -/
def xmlExtractTagSyn : Syn :=
    .seq (.chr '<') (.seq (.rep 0 (some 1) true (.cls false [.one '/', .one '?'])) (.grp (.named ['t', 'a', 'g'])
   (.seq (.rep 0 (some 1) true (.seq (.grp (.named ['n', 'a', 'm', 'e', 's', 'p', 'a', 'c', 'e']) (.rep 1 none true
   (.cls true [.one ' ', .one ':']))) (.chr ':'))) (.grp (.named ['n', 'a', 'm', 'e']) (.rep 1 none true (.cls true
   [.one ' ', .one '/', .one '>', .one '=']))))))

/-- What `xmlAttribute` is read as. -/
def xmlAttributeSyn : Syn :=
  .grp
  (.named ['a', 't', 't', 'r', 'i', 'b', 'u', 't', 'e'])
  (.seq
        (.grp (.named ['t', 'a', 'g']) (.seq (.rep 0 (some 1) true (.seq (.grp (.named ['n', 'a', 'm', 'e', 's', 'p',
     'a', 'c', 'e']) (.rep 1 none true (.cls true [.one ' ', .one ':']))) (.chr ':'))) (.grp (.named ['n', 'a', 'm',
     'e']) (.rep 1 none true (.cls true [.one ' ', .one '/', .one '>', .one '='])))))
        (.seq (.chr '=') (.seq (.chr '\"') (.seq (.grp (.named ['v', 'a', 'l', 'u', 'e']) (.rep 1 none true (.cls true
     [.one '\"']))) (.chr '\"')))))

/-- What `xmlText` is read as. -/
def xmlTextSyn : Syn :=
  .alt
    (.grp (.named ['p', 'i']) (.seq (.chr '<') (.seq (.chr '?') (.seq (.grp (.named ['v', 'a', 'l', 'u', 'e']) (.rep 0
   none false (.any))) (.seq (.chr '?') (.chr '>'))))))
    (.grp (.named ['c', 'o', 'm', 'm', 'e', 'n', 't']) (.seq (.chr '<') (.seq (.chr '!') (.seq (.chr '-') (.seq (.chr
   '-') (.seq (.grp (.named ['v', 'a', 'l', 'u', 'e']) (.rep 0 none false (.any))) (.seq (.chr '-') (.seq (.chr '-')
   (.chr '>')))))))))

/-- What `xmlns` is read as. -/
def xmlnsSyn : Syn :=
    .seq (.chr 'x') (.seq (.chr 'm') (.seq (.chr 'l') (.seq (.chr 'n') (.seq (.chr 's') (.rep 0 (some 1) true (.seq
   (.chr ':') (.rep 1 none true (.any))))))))

/-- What `sentence` is read as. -/
def sentenceSyn : Syn :=
  .seq
    (.grp (.behind) (.seq (.cls false [.word]) (.seq (.grp (.numbered) (.alt (.chr '.') (.alt (.rep 3 none true (.chr
   '.')) (.alt (.chr '…') (.rep 1 none true (.cls false [.one '!', .one '?'])))))) (.rep 0 none true (.lst ['s', 'e',
   'n', '_', 's', 'u', 'f'])))))
  (.alt
    (.seq (.rep 0 none true (.lst ['s', 'e', 'n', '_', 'w', 's'])) (.eos))
    (.alt
      (.rep 2 none true (.lst ['s', 'e', 'n', '_', 'w', 's']))
      (.alt
                (.seq (.lst ['s', 'e', 'n', '_', 'w', 's']) (.grp (.ahead) (.seq (.rep 0 none true (.lst ['s', 'e',
         'n', '_', 'p', 'r', 'e'])) (.seq (.lst ['h', 'f', '_', 's', 't', 'a', 'r', 't', 's']) (.lst ['s', 'e', 'n',
         '_', 'w', 's'])))))
        (.seq
          (.grp (.notBehind) (.lst ['i', 'g', 'n', 'o', 'r', 'e', 's']))
          (.seq
                        (.grp (.notBehind) (.seq (.lst ['n', 'u', 'm', '_', 'a', 'b', 'b', 'r', 's']) (.grp (.ahead)
             (.seq (.lst ['s', 'e', 'n', '_', 'w', 's']) (.cls false [.digit])))))
            (.seq
                            (.grp (.notBehind) (.seq (.cls false [.range 'A' 'Z']) (.seq (.rep 1 none true (.cls false
               [.range 'a' 'z'])) (.seq (.lst ['s', 'e', 'n', '_', 'w', 's']) (.seq (.cls false [.range 'A' 'Z'])
               (.seq (.chr '.') (.grp (.ahead) (.seq (.lst ['s', 'e', 'n', '_', 'w', 's']) (.seq (.cls false [.range
               'A' 'Z']) (.rep 1 none true (.cls false [.range 'a' 'z'])))))))))))
              (.seq
                                (.grp (.notBehind) (.seq (.chr 'U') (.seq (.chr '.') (.seq (.chr 'S') (.seq (.chr '.')
                 (.grp (.ahead) (.seq (.lst ['s', 'e', 'n', '_', 'w', 's']) (.seq (.chr 'G') (.seq (.chr 'o') (.seq
                 (.chr 'v') (.seq (.chr 'e') (.seq (.chr 'r') (.seq (.chr 'n') (.seq (.chr 'm') (.seq (.chr 'e') (.seq
                 (.chr 'n') (.chr 't')))))))))))))))))
                                (.seq (.lst ['s', 'e', 'n', '_', 'w', 's']) (.grp (.ahead) (.seq (.rep 0 none true
                 (.lst ['s', 'e', 'n', '_', 'p', 'r', 'e'])) (.cls false [.range 'A' 'Z', .digit])))))))))))

/-- What `word` is read as. -/
def wordSyn : Syn :=
    .grp (.named ['w', 'o', 'r', 'd']) (.seq (.cls false [.word]) (.rep 0 none true (.seq (.rep 0 (some 1) true (.alt
   (.lst ['s', 'q', 's']) (.seq (.chr '-') (.rep 0 none true (.cls false [.space]))))) (.cls false [.word]))))

/-- What `char` is read as. -/
def charSyn : Syn :=
  .grp (.named ['c', 'h', 'a', 'r']) (.cls false [.word])

/-- What `chunk` is read as. -/
def chunkSyn : Syn :=
  .seq
  (.grp (.behind) (.alt (.bos) (.chr '\n')))
  (.grp
    (.named ['c', 'h', 'u', 'n', 'k'])
    (.seq
      (.grp (.named ['i', 'n', 'd', 'e', 'n', 't']) (.rep 0 none true (.cls false [.one ' ', .one '\t'])))
            (.seq (.cls true [.one ' ', .one '\t']) (.seq (.rep 1 none false (.cls true [.one '\n'])) (.seq (.chr
       '\n') (.rep 1 none true (.seq (.back ['i', 'n', 'd', 'e', 'n', 't']) (.seq (.cls true [.one ' ', .one '\t'])
       (.seq (.rep 1 none false (.cls true [.one '\n'])) (.alt (.chr '\n') (.eos)))))))))))

/-- What `type1` is read as. -/
def type1Syn : Syn :=
  .seq
  (.grp (.behind) (.alt (.bos) (.chr '\n')))
  (.seq
        (.grp (.named ['t', 'a', 'b', 'l', 'e']) (.seq (.seq (.rep 2 none true (.chr '-')) (.rep 1 none true (.seq
     (.chr '+') (.rep 1 none true (.chr '-'))))) (.rep 1 none true (.seq (.chr '\n') (.seq (.grp (.named ['r', 'o',
     'w']) (.rep 1 none false (.any))) (.seq (.chr '\n') (.seq (.rep 2 none true (.chr '-')) (.rep 1 none true (.seq
     (.chr '+') (.rep 1 none true (.chr '-')))))))))))
    (.grp (.ahead) (.alt (.eos) (.chr '\n'))))

/-- What `type2` is read as. -/
def type2Syn : Syn :=
  .seq
  (.grp (.named ['i', 'n', 'd', 'e', 'n', 't']) (.rep 0 none true (.cls false [.one ' ', .one '\t'])))
  (.seq
    (.grp
      (.named ['t', 'a', 'b', 'l', 'e'])
      (.seq
        (.rep 2 none true (.chr '-'))
        (.seq
                    (.rep 0 none true (.seq (.chr '\n') (.seq (.back ['i', 'n', 'd', 'e', 'n', 't']) (.seq (.grp
           (.named ['r', 'o', 'w']) (.rep 1 none false (.any))) (.seq (.chr '\n') (.seq (.back ['i', 'n', 'd', 'e',
           'n', 't']) (.seq (.chr '|') (.rep 1 none true (.seq (.rep 1 none true (.chr '-')) (.chr '|'))))))))))
                    (.seq (.chr '\n') (.seq (.back ['i', 'n', 'd', 'e', 'n', 't']) (.seq (.grp (.named ['r', 'o',
           'w']) (.rep 1 none false (.any))) (.seq (.chr '\n') (.seq (.back ['i', 'n', 'd', 'e', 'n', 't']) (.rep 2
           none true (.chr '-'))))))))))
    (.grp (.ahead) (.alt (.eos) (.chr '\n'))))

theorem read_canonical : read false canonical = some canonicalSyn := by decide +kernel
theorem read_parse : read true parse = some parseSyn := by decide +kernel
theorem read_xmlExtractTag : read false xmlExtractTag = some xmlExtractTagSyn := by decide +kernel
theorem read_xmlAttribute : read false xmlAttribute = some xmlAttributeSyn := by decide +kernel
theorem read_xmlText : read false xmlText = some xmlTextSyn := by decide +kernel
theorem read_xmlns : read false xmlns = some xmlnsSyn := by decide +kernel
theorem read_sentence : read false sentence = some sentenceSyn := by decide +kernel
theorem read_word : read false word = some wordSyn := by decide +kernel
theorem read_char : read false char = some charSyn := by decide +kernel
theorem read_chunk : read false chunk = some chunkSyn := by decide +kernel
theorem read_type1 : read false (buildTable type1) = some type1Syn := by decide +kernel
theorem read_type2 : read false (buildTable type2) = some type2Syn := by decide +kernel

end Patterns
end Pawpaw
