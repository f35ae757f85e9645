# Formal model of dgo: design

The code under study is `/repo` (lyraproj/dgo, Go).  It is read as text only; nothing of it is built or run here.
Everything below `lean/Verif/` is plain Lean 4 (4.33.0).  `properties.jsonl` holds the properties, `MANIFEST.json` says
which theorem settles which property.

## Layout

* `Verif/<Area>/Model*.lean` (and, in `Text` and `Conc`, one file per component) – the model: functions that follow the Go
  code, each with a comment citing file and lines.  The head of each model file lists what is simplified in it.
* `Verif/<Area>/Spec.lean` or definitions at the head of a `Props` file – the small independent specifications.
* other files of an area – helper lemmas.
* `Verif/<Area>/*Props.lean` – the property theorems `Cnn_…`, each followed by an `example` that meets its hypotheses.

A theorem with the suffix `_partial` proves the part of its property that holds; where the code does not do what the
property says there is a theorem (`…_violated`, `…_breaks`, or a name that says what happens) which proves the opposite
with a witness.

## Per property: what is modelled and how it is proved

| property | model | proof |
|---|---|---|
| C01 C02 | `HMap`: hash map pointer by pointer: node heap with `hashNext`, `next`, `prev`, table of bucket heads, `first`, `last`, `len`; any key type whose hash respects `Equals` | refinement to an insertion-ordered association list; induction over all programs of calls |
| C03 C04 | same heap, several maps in it | per-operation theorems: result, frame (other maps unchanged) |
| C05 | `ToMap`, `ToMapFromEntries` on the same heap | refinement for distinct keys; for all lists what `Get`, `Len` and iteration answer, and what putting such a map into another gives (`HMap/ListProps`); witnesses for repeated keys and shared entries |
| C06 | `tableSizeFor`, `hash`, slot masking on 64-bit words | bit-level lemma for all words, invariant for reachable tables |
| C07 C08 C09 | `Value`: trees; `equals`, `mapEqual`, `deepHashCode` by structural recursion | induction on values; hash agreement through the sorted fold; C09 is false for cyclic arrays and for types |
| C10 C11 | `Value`: `compare`, `CompareTo` per kind, stable sort | order laws by induction; permutation, sortedness, stability |
| C12 C13 C14 C15 | `Arr`: heap of backing stores with slices (store, offset, length, frozen), any growth policy of `append` | invariant over histories; witnesses for the sharing in `With`; `Arr/Results` says outright what new, copied, filtered and extended arrays contain |
| C16 C17 C18 C19 | `Value/Lists`: as coded (mark-and-nil matching, hash-table Unique, Flatten) | induction |
| C20 C21 C22 C23 | `Graph`: object heap (arrays, maps, entries, binaries, sensitive and native values by reference, frozen flags) | reachability invariants over all programs; witnesses for the calls that break them |
| C24 C25 | `Types`: integer range types on 64-bit integers, float ranges on float64 bits | decision logic |
| C28 C29 C30 C31 C32 C33 | `Types`: type trees with object identities, `Instance` with the recursion guard, constructors, `Validate`, `New` | refinement of `Instance` to the relation `Has`, which knows no guard; induction on types |
| C26 C27 C58 | `Types/Assign`: `Equals`, `Assignable`, `CheckAssignableTo`, with the guard against recursion and object identities | induction on fuel with an invariant of the guard; the claims hold only in part, see the section on Assignable |
| C59 | `Types`, `Value.eq` | induction on types |
| C60 | `Types/Hash`: `HashCode` of all modelled types; equality of `Types/Assign` | induction on the fuel of `Equals`; false where equality ignores the order of operands or identifies two representations |
| C34 | `ToInt` per Go integer kind | arithmetic on words |
| C35 – C40, C54, C55, C57 | `Text`: UTF-8, string reader, lexer, recursive-descent parser, type printer | round trip by induction on types with precedence and tokens, and what it says about instances (`Text/MeaningProps`); totality by a measure on tokens; witnesses |
| C41 C42 C53 | `Conc`: alias map and named registry as step machines over any number of calls | invariants over all interleavings |
| C43 C44 C45 | `Conc`: loader, finder and namespace creator as choices of the environment, step machines | invariants over all interleavings |
| C46 C47 C48 | `Stream`: streamer producing consumer events; collector, JSON delimiter machine, decoder | simulation of the reference indices; round trips; witnesses |
| C49 C56 | `Print`: `AppendTo`/`AppendValue` over an object heap | non-interference by induction; bound on the depth; equality with printing without recursion check |
| C50 | `Binary`: heap of byte stores; base64 | frame theorem over all programs; round trip by induction |
| C51 | `Graph`: equality with the `seen` path | termination bound; bisimulation; witness for asymmetry |
| C52 | `Print`: indenters that share a buffer | induction over calls; witness for the draining `String` |
| C61 – C65 | `Pcore`: lexer and parser of the pcore dialect; `Pcore/Spec` is a grammar of type expressions with the values that each describes | totality by a measure on tokens; induction over expressions, from the text over tokens to instances of the type; `Pcore/Lists`: lists with entries in them |
| C66 – C70 | `Reflect`: Go types and values (no structs), `ReflectTo`, `ValueFromReflected`, `ReflectType`, `commonReflectTo` | induction on values in both directions; `Survives`, `Returns`, `Known` in `Reflect/Spec` say which variables can hold what; C70: sorted permutations of distinct keys are equal |
| C71 | `Reflect/Struct`: structs as lists of named Go variables, embedded structs, frozen and addressable flags | `Reflect/StructSpec` is a record with typed fields; simulation of all sequences of operations; equality through the map of the entries |
| C72 | `Reflect/Alias`: memory of variables, slices and arrays; structs refer to variables; the Go program's steps and those of structs | invariants over all programs (`Inv`, `Sep`, `Later`), frame theorems; witnesses where slices or `GoStruct` leak |
| C73 | `Reflect/FromType`: `TypeFromReflected` into the types of `Types/Model`; a native type is the type without instances | the instances of each type are found by induction over the Go type (`from_spec`); with C66 and C68 for the conversion, `C73_read` is an equivalence |
| C74 | `Reflect/Call`: Go functions with any body, `Call`, `In` and `Out`, assignability of function types | relation `Receives` in `Reflect/CallSpec`; the call is determined by it; C73 for the arguments and results |
| C75 | `Types/Generic`: `Generic` of all types of `Types/Model`, with `commonGeneric` through the model of `Assignable` and `Unique` through that of `Equals` | induction over the type: the result is a type of scalars, arrays and maps whose objects are new or parts of the type (`GI`), for which assignability is sound even where objects are shared (`asg_incl`, with `Coherent`); `C75_idempotent`, `C75_scalar`, `C75_array`, `C75_map` hold outright |
| C76 | `Types/NewConv`: the conversions that `Types/New` leaves open, for integers, booleans, binaries, arrays and maps: `strconv.ParseInt` and `fmt.Sprintf` for the integer formats, `CiEnumType` of the boolean texts, base64; floats, times and `String` of other values stay open (`Lib`), and `strings.EqualFold` is assumed to fold ASCII (`FoldsAscii`, a hypothesis of the boolean theorems only) | `ParseInt` accepts exactly the numerals (`Numeral`, an independent specification by digit lists), by induction over the text; formatting gives a numeral, by induction over the number; decision logic for the rest |
| C77 | `Types/Access`: `Min`, `Max`, `Unbounded`, `Inclusive`, `ElementType`, `KeyType`, `ValueType` of all types of `Types/Model` that have them | case analysis on the type against `instanceOf`, with the counting lemma for struct types and, for the members, the lemmas of the soundness proof of C26 (`array_kid`, `map_kid`) |
| C78 | `Types/Named`: `internal/named.go` except `String`/`ValueString`: registered, parameterized and exact named types, `AssignableType`, `ReflectType`, the default checker, `Assignable` (with the unwrapping of unions), `Instance`, `New`, `Equals`, `HashCode`, `Generic`, `ExtractInitArg`, the registry. The functions of the user (constructor, extractor, checker, `Equals` and `HashCode` of their values) are parameters; a Go type is its identity and its methods | case analysis; induction over operations of the registry for the invariant that names are unique and right; equality and hash by recursion on the type from lawfulness of the values |
| C79 | `Text/Named`: `ValueString` with the indenter that drops blanks at ends of lines, the parser for a name and its argument (`namedType`), on top of the lexer, parser and printer of C35 and the indenter of C52 | the text is one line that does not end in a blank; its tokens are those of the name and of the argument, which `val_rt` of C35 reads; `Text/NamedOther` has the arguments for which it fails |
| C80 | `Stream/Named`: `emitNamed`, `emitMap`, `emitSensitive`, `emitType` and the data decoder on trees (no identities, no de-duplication), with the registry, constructors and extractors as parameters | mutual induction over the data: emitted events are decoded as the data; keys of emitted maps |
| C81 | `Types/Rec`: `Instance` and the recursion guard on graphs of types and values that may contain themselves; types that look at no part of a value are predicates | `Types/RecSpec`: readings of types, the greatest consistent one (`Conforms`); one step of the check is right if the answers about the parts are (`step`); inductions over depth of the type, size of the value, and what has not been seen |
| C82 | `Types/RecEq`: `Equals` and `HashCode` on graphs of types, with the list of types seen, methods and functions apart | `Types/RecEqSpec`: types are the same if there is a relation that relates them and what they mention (`Same`); `HashCode` returns exactly if no negation contains itself: simple paths for one direction, the number of types reachable and not yet seen for the other; renaming of addresses for copies; `Types/RecEqOps`: `Alike` is `Same` up to the order of operands, an equivalence, so taking the first operand that fits loses nothing; nothing seen is in either type, as they are apart |
| C83 | `Types/RecAsg`: `Assignable` on graphs of types with arrays, maps, unions and sensitive, the guard with its two lists and flags, where it is swapped and where it is dropped | `Types/RecAsgSpec`: `Same` as for C82, inclusion over all readings of the types as sets of values; the room left in the guard and the number of types reachable for returning; nothing on the side without cycles has been seen, for soundness |
| C84 C85 C86 | `Stream/Bytes`: the bytes the encoder writes, with `json.Marshal` of strings and integers; `json.Decoder.Token` with its lexer and states; the decoder on top of it | `Stream/BytesSpec`: spellings of tokens and blanks (RFC 8259), and what a text says, as inductive relations; the bytes spell the tokens of C47; spelled tokens are read as such; what the states let through is in the grammar; induction on the grammar for the data |
| C87 | `Reflect/OfType`: `ReflectType` of every type of `Types/Model` | what a Go type takes (`Takes`, a lemma device) is found by recursion over the type; the values have their place in the common type of the parts (`commonT_up`); C66, C68 and C73 for the rest |
| C88 | `Types/FromMap`: `StructFromMapType`, `StructMapTypeFromMap`; `Parse` is any function from texts | what the entries declare (`Means`, `Declares`) is read off the checks by cases; C32 says what the struct type accepts |
| C89 | `Conc/Naming`: `AbsoluteName` and repeated `Namespace` on the trees of loaders of `Conc/Tree` | induction over the path; all loaders merged in a child loader have the same absolute name |
| C90 | `Types/New` (`intFromConvertible`, `floatFromConvertible`, `newBoolean`); the number that a float is (`units`, IEEE 754, in units of 2^-1074) is in `Types/NumSpec` | the numbers of successive magnitude bits increase, so the two floats around an integer are next to each other; Go's `int(f)` as on amd64 |
| C91 | the types of `Types/Model`; the number a float is (`units`) | finite floats are ordered like their bits; cases of `FloatType` |
| C92 | the lexer of `Text/Lexer` | induction over the input: each error is decided by what has been read (`Stays`), or arises at the end and a continuation is shown |
| C93 | the lexer of `Text/Lexer`; the grammar is `Text/TokenSpec` | each loop of the lexer against its part of the grammar, by induction over the input; both directions |
| C94 | `Text/ErrPos`: the last step of `DoParse`, over the reader of `Text/Reader` | C93 tells how long the token is in the text, C40 where the reader is |
| C95 | the streamer of `Stream/Model`; what a consumer can do is `Able` in `Stream/Able` | induction over the fuel; for what is refused, an invariant of the table of seen objects (all of them data whose parts have been looked into) |
| C96 | `Text/Func`: `function` and `writeTupleArgs` of the printer, `funcExpression` of the parser, `FunctionType`, on top of the lexer, parser and printer of C35; function types do not occur inside of other types | the tokens of the text, then the lists in parentheses as for the tuples of C35; the panic of `FunctionType` by cases |
| C97 | the object heap of C20-C23 (`Graph`), with the content of maps as lists of keys and values (`Graph/SepSpec`) | an invariant over all programs: nodes have distinct keys and are in one map; each call's effect on the content, with no panic for a mutable receiver; what is not the receiver or one of its nodes is unchanged |
| C98 | the lexer of `Pcore/Lexer`; the grammar is `Pcore/TokenSpec`, on top of that of C93 | each loop against its part of the grammar, by induction over the input; both directions |
| C99 | Go values, memory, `ValueFromReflected`, `ArrayFromReflected`, `HashCode` of natives, functions and arrays (`Native/Model`), with a number that bounds nested calls; `reflect.DeepEqual` is a relation of the specification (`Native/Spec`) | simulation: results for alike values are alike for each bound; results do not change with the bound; termination by induction over the derivation of `Hashable`; violated for cycles, `uintptr`, hidden slices, and reflexivity for functions |
| C100 | native types over Go types with name, underlying type and methods (`Native/Model`) | case analysis; assignability violated because Go's is not transitive; the hash code of the default type violated (nil dereference) |
| C101 | the four kinds of errors, their messages, types, `FromValue` and `errors.Is` (`Errs/Model`); the texts of types in messages are given | case analysis, induction over wrapped errors; violated: symmetry between kinds, `errors.Is` for the error itself, and `*error` destinations |
| C102 | the two maps of an alias map over the dictionary of C01, `Add`, `Collect`, `update`, `AddAliases`, and the declarations that `Parse` makes (`Alias/Model`); `Replace` is any function (its code: `Conc/Alias`) | induction over the calls, and over nested declarations; what is refused is stated exactly (`Alias/DeclareProps`); holds outright where names are declared in texts only; violated where a later call gives a name to another type |
| C103 | both kinds of function types with their tuples, nested, over other types of which only `Equals` and `HashCode` are used; function values by code and captured variables (`Func/Model`) | relations `Like` and `Same`, mutual induction; violated: symmetry between the type of a Go function and the one read from its text, closures |
| C104 | the dispatch on arguments of the constructors in `tf`, with the errors (`Types/Ctor`), on top of the constructors of C30 | the lists that are described are inductive predicates (`SizeArgs`, `ArrayArgs`, `MapArgs`); both directions by cases, instances by C30; violated: one element of the nil type (C30), `tf.CiString` of İ |
| C105 | trees of loaders with `Equals`, `HashCode`, `Get`, `Namespace`, `init` and `initMap` (`Conc/LoaderVal`); map objects, some frozen, that loaders and programs share (`Conc/LoaderShare`) | equality by an encoding of loaders as values and the laws of C08; hash codes by permutation; answers by induction on the path; sharing by an invariant over sequences of operations; violated: finders, names, entries that `ExtractInitArg` hands out |
| C106 | `metaType` as a type (`Type`, `Instance`, `New`) and `Instance` of the type `dgo`, on top of the parser of C54 and the assignability of C26 (`Text/Meta`) | an inductive predicate says what an argument describes; both directions by cases; texts by C35, reflexivity by C27; violated: a type of types compares with `Equals` what its instances are checked for with `Assignable` |
| C107 | the model of C26 (`asg`) | values are built for every type on the right (`Ample.hold`), so that inclusion gives inclusion of the parts and of the bounds; induction over the fuel for every guard (a hit answers true); violated on the types left out, with nine witnesses; the equivalence with C26 in `C107_iff_partial` |
| C108 | `HMap/EachModel`: the loop `for e := g.first; e != nil; e = e.next` on the heap of C01, with an actor that is a tree of calls | refinement to a cursor (`HMap/EachSpec`): every call of the API on the heap moves the cursor as the specification says (`step_cursor`), with the entries still to come as a chain of nodes that may have left the map; then induction over the loops of the specification.  Partial: loops may be endless, may visit removed entries and may see old values, with four witnesses |
| C109 | `Arr/EachModel`: the loop `a := v.slice; for i := range a` on the heap of C12 - C15, with an actor that is a tree of calls | storage never shrinks (`inside_exec`), the slice of the array stays the same when its length isn't changed (`header_exec`), what is added lies behind the slice (`Before.exec`), and separation (`exec_sep`) for other arrays and frozen ones; induction over the loop.  Partial: violated when elements are removed or inserted, and after growth, with three witnesses |
| C110 | `Alias/ResolveModel`: a heap of type and value objects; `Replace` and all twelve `Resolve` methods as they read and write it, with the heap of every moment kept; the recursion has fuel (`more` when it is used up; no theorem is about a run that has used it up, and `C110_returns_partial` shows that there is always enough) | an invariant with the set of types that are being resolved (`Ok`): each holds its own parts, those of the start with some aliases replaced, or nothing; `replace_post` by induction on the fuel and the kinds of nodes; the end by a measure of what is not yet empty and the order of values (`replace_ends`) |
| C111 | the lexer and parser of C35 - C39 (`Text/Lexer`, `Text/Parser`) and the constructors and instance checks of `Types/Model` | the tokens of such a text (`tokens_range`), what the parser calls with them (`parse_range`), and what the types accept (`integerType_accepts`, `floatType_accepts`) |
| C112 | `Live/Model`: a heap of arrays whose elements are numbers, arrays and types of arrays, and the calls that make and change them; `Equals`, `HashCode` and `Instance` of types; a `hashMap` (`HMap/Model`) whose keys are asked at different moments | equality is of the contents (`equals_of`, induction over the contents); frozen arrays are kept by every call (`run_keeps`), so all that only reaches frozen arrays is the same |
| C113 | `toDgoName`, the built-in names, `aliasDeclaration` and `aliasReference` of the pcore parser (`Pcore/Names`), over the tokens of C98 and the alias map of C102; parameters of named types and what is read between the declarations are left out | names are lists of parts (`Pcore/NameSpec`); joining with dots is injective; the declarations are those of C102 with their names in dgo (`pdeclareAll_eq`) |
| C114 | `callableType`, `tupleFromArgs`, `getIfInt` and `returnType` of the pcore parser, on the arguments that were read (`Pcore/Callable`); types are any type, of which only is known whether it is a function type | case analysis from the end of the list; which numbers of arguments are taken is stated exactly |
| C115 | trees of values with arrays and arguments at addresses: `equals`, `HashCode`, `CompareTo`, `Instance`, `ContainsAll`, `AddAll`, `Flatten`, `ToMapFromEntries`, `IndexOf`, `sliceFromIterable`, `AssertSize`, `Arg`; `ArgumentsFromArray` on the storage of `Arr/Model` (`Args/Model`). Values that contain themselves are left out | induction on the trees against contents without addresses and kinds; the separation of C13 for storage |
| C116 | `Instance` of the type `dgo` with `Parse`, `AddAliases` and the declarations of `Alias/Model` (`Alias/DgoString`); what the grammar makes of a text is a parameter, `Replace` is one that needs all names of a value (C110) | from which names are declared and known afterwards, by induction on the questions |
| C117 | trees of values with arrays and the three implementations of entries: `equals`, `deepHashCode`, `Frozen`, `FrozenCopy`, `vf.Values`, `IndexOf`, `Type`, `ToMapFromEntries` (`Entry/*`) | by induction on values against their contents; where struct entries, mutable keys and entries that are no nodes break it is proved as violations |
| C118 | instants with zones, the Gregorian calendar, `int64` arithmetic, and floats as rational numbers with a rounding of which only `Nearest` (53 bits, any rule for ties, no limits of the exponent) is assumed: `SecondsWithFraction` and the conversions between times, floats and integers (`Time/*`; `f64_nearest` shows that there is such a rounding) | error bounds of the roundings, monotonicity of every nearest rounding, the calendar by linear arithmetic; violations for every rounding |
| C119 | Go's `Format` and `Parse` for `time.RFC3339Nano` on the times of C118: calendar, padded and trimmed digits, zones (`Time/Text*`) | every part that is read is the part that was written, by induction on digits; months by a table for all days of a year; the remaining years and zones are violations |
| C120 | `Ftoa` and how `FormatFloat` arranges the digits it has computed (`Text/FloatModel`); the digits themselves and `ParseFloat` are any functions that meet `Strconv`, and there are such (`strconv_exact`) | the text denotes the number of the digits, in exact arithmetic; the lexer and parser of C33 and C35 read it; texts of NaN and infinities and ranges from a bound with an exponent are violations |
| C121 | `Equals`, `CompareTo` and `Instance` on Go values (`Goarg/Model`): their type switches, `ToInt`, `ToFloat`, and `Value` where they call it | what each type assertion sees of a Go value is what its value is (`views`), then by cases on the receiver and by induction over the type; pointers, Go Booleans and nil in `CompareTo`, slices and maps in `Instance` and the largest `uint64` are violations |
| C122 | the two reads and the write of `hstring.HashCode` as steps of any number of goroutines, over a memory that is a parameter: interleavings (`Seq`), or what the Go memory model allows to racing reads (`Weak`, which is my reading of that document) (`Conc/StrHash`) | invariants over all executions: outright for interleavings, and under the memory model when the hash code was asked for before; an execution that returns 0 is a violation |
| C123 | `Type` of values, `Instance` and `Assignable` with their guards (`Types/Model`, `Types/Assign`) | the type of a value that is not sensitive accepts exactly its equals; for values that are no collections the two questions agree for every type, by induction; for collections without empty ones in them for sized arrays at any depth, sized maps, tuples, structs and alternatives of types without parts; the rest is violated (six ways) |
| C124 | lexer and parser (`Text/Lexer`, `Text/Parser`) and `Instance` (`Types/Model`) together | the parser is run on the text of each row by the kernel, and the instances of the type that comes out are characterised for all values with `has`, which does not depend on the identities (`Text/Means`); struct types through distinct string keys (`Text/DocsProps`) |
| C125 | the lexer (`Text/Lexer`) and the grammar of its tokens (`Text/TokenSpec`, of C93), the parser | two texts with the same tokens, by induction over the tokens with C93; that every text that is read has such a division and may be spread out, by induction over the text (`Text/Layout`, `Text/LayoutProps`) |
| C126 | the printer with an alias map (`Text/AliasPrinter`), names and `<name>` in the parser (`Text/Parser`, `PEnv.alias_`); that both maps agree and which names are good is `NamesOk` (`Text/AliasSpec`); the alias map that texts with declarations leave behind is that of C102 (`Text/AliasDeclared`) | as C35, by induction on types, every type with or without a name (`Text/AliasLemmas`, `Text/AliasProps`); that names are used wherever parts have them is `Text/AliasUses`; witnesses |
| C127 | `Assignable` of `Types/Assign`; kinds and combinations in `Types/KindSpec` | exact characterisation for all types, by induction on the fuel of `asg` (`Types/KindProps`); witnesses |

## Trusted base

Lean's kernel; the axioms `propext`, `Classical.choice` and `Quot.sound` (no theorem depends on any other: checked with
`#print axioms`, no `sorry`, `native_decide` or `bv_decide`); the reading of the Go code that the comments in the model
files document; Go semantics of slices, maps, integers, strings and `append` as used in those comments; the documentation
of the Go libraries where a library function is written down as a definition (`utf8`, `strconv.Quote`, `strconv.ParseInt`,
`base64`, `sync.Map`, `sort.SliceStable`, `json.Marshal` of strings and integers, `json.Decoder.Token`).

Parameters (arbitrary functions, so that theorems hold whatever they are): hash and equality of keys in `HMap` (consistent
with each other), growth of `append`, `regexp` matching, `strings.EqualFold` and lower case of non-ASCII, parsing and
printing of floats (round trip assumed where a theorem says so; C120 models how the digits are arranged), `strconv.IsPrint` (control characters are not printable),
finders and namespace creators of loaders.

Not modelled: JSON objects with repeated names, reflection on channels, Go arrays, named Go types and structs inside of other values (`native`; a `structVal`
is modelled for a struct by itself), function
types inside of other types and functions inside of other values, error values, the `dgo` string type, YAML, named types in other types, aliases, `Callable`
and calls in the `pcore` dialect, the `cli`,
`time` formatting beyond RFC 3339 (C119), IEEE arithmetic beyond order and NaN (except for the conversions of C90 and the roundings of C118), performance, memory. Types that contain themselves are modelled for `Instance` (C81), `Equals` and `HashCode` (C82) and, without tuples, struct types, `allOf`, `oneOf` and `not`, `Assignable` (C83) only.

## Where the code does not do what the property says

Each entry is a theorem with a witness unless marked (noted).

* **C03** `With(k, nil)` on a map is lost.  **C05** `vf.Map("a",1,"a",2)` has two entries for one key; `ToMapFromEntries`
  puts the nodes of another map into the new one.
* **C09** equal cyclic arrays can have different hash codes.  **C60** equal `anyOf`, `allOf` and `oneOf` types with the
  operands in another order have different hash codes; so have an `allOf` of exact types and the type of all elements of an
  array, the empty tuple and the type of the empty array, and sensitive types of a tuple and of the equal exact array type.
* **C13, C14** `With` on a frozen array with spare capacity writes into storage that other arrays share; `GoSlice` of a
  mutable array and later `Freeze`.  `Slice` is bounded by the capacity, not the length (C15_slice_beyond_length).
* **C16** `ContainsAll` looks only at the first `len(other)` elements.
* **C20** `Freeze` does not look into frozen collections, so that mutable ones inside stay mutable; it does not return for
  an entry that is its own value.  **C21** `FrozenCopy` of a cyclic value does not return.
* **C22** `With`, `Map`, `WithAll`, `Merge` on frozen collections, `ThawedCopy` of an entry, a `Freeze` that panics half way
  and shared entries put mutable values into frozen collections.  **C23** `ThawedCopy` of an entry changes the entry.
* **C24** the range MinInt64…MaxInt64 with exclusive end has MaxInt64 as instance.
* **C32** struct types with a key declared twice; `Validate` reports keys that are allowed as additional keys.
* **C33** `sensitive[T].New`.  **C34** `uint` numbers above MaxInt64 wrap, only MaxUint64 is refused.
* **C35** types that are not read back from their text, see below.
* **C36** `strconv.Quote` writes escapes (`\a`, `\x01`, `­`) that the lexer rejects.  **C37** backslashes in patterns are
  doubled each time.
* **C40** the column is one too large after the first line.
* **C46** a map that looks like a reference (`{"__ref": 0}`) is streamed as one, to an item it does not mean or to none at
  all; without de-duplication a cyclic value is followed for ever.
* **C47** an alias map that lacks the name of a type makes the streamer write `{"__type"}`.
* **C48** shared rich values are decoded to the map that encodes them from the second place on; maps with the keys `__type` or
  `__ref`; integral floats become integers, NaN and infinities panic, strings that are not UTF-8 are changed; with the pcore
  dialect references are written as `__ref` and read as `__pref`; the decoder does not end for an array that contains itself
  inside a map whose keys are not all strings.
* **C51** equality of cyclic values is not symmetric.
* **C52** `String` of an indenter empties it; blanks at the ends of lines are lost.
* **C53** an alias for an alias that is added by the same call stays unresolved.
* **C55** U+0001 – U+0007 are read as tokens of the types 1 – 7 with an empty value (`"\x01"` is the integer 0), and the text
  after NUL is ignored.  **C57** `09` is 0, `01x1` is 0, and integers out of range are the nearest integer in range.
* **C62** `Float[1.5]` does not describe infinity, `Float` does; `Array[Undef,1,1]` panics; the sizes in `Tuple[T,2,3]` are
  ignored; `Number[1.5,1.5]` describes the integer 1; `String[default,5]` panics.  **C63** `{1=>2,1=>3}` has two entries for
  one key.  **C65** as C55.
* noted, not stated as properties: the `sizedMap` hash code takes the key type twice; `TypeIdentifier.String` has no name for
  `TiNamedExact` and panics; printing an entry of a map that contains itself shows the recursion one level later than printing
  the map; `resize` at least doubles the table with every non-empty `PutAll`; `array.Resolve` changes frozen arrays.
* **C66** integers are truncated when they are put in a smaller Go type; `nil` becomes the zero value; an array of integers in a
  `[]byte` is read as a binary; a time in an `interface{}` or behind a pointer is read as a native value.  **C67** an `int8` in an
  `interface{}` comes back as `int64`, an `[]interface{}` with elements of one type as a slice of that type; pointers to
  pointers panic; the greatest `uint64` panics.  **C68** maps with arrays, maps or binaries as keys cannot be put in an
  `interface{}`.  **C69** a `map[interface{}]T` can give a map with two equal keys; the value of a NaN key is lost.  **C70** with
  times as keys the order is that of Go's enumeration.
* **C71** an integer put in a smaller field is truncated and `nil` in a string field is the empty string; the fields of embedded structs
  are found by `Get` and not by `Keys`, so that equality with a map is not symmetric; `Freeze` panics for a struct with an embedded struct
  and the struct is frozen nevertheless; `Put` on the struct that `vf.Map(x)` makes for a struct that is not a pointer always panics.
  **C72** slices in a frozen struct can be changed by the program, also when only the struct had them; `GoStruct` of a frozen copy is a
  pointer to what the copy shows.
* **C75** `Generic` of a struct that allows other keys does not accept what the struct accepts; of `typ.AllOf` it is Go's nil; exact binaries
  keep their value and the parts of array, map and sensitive types stay exact, both against typ/utils.go:23-26; the generic type of a tuple
  depends on the order of its elements (`C75_struct_violated`, `C75_nil_violated`, `C75_binary_violated`, `C75_nested_violated`, `C75_order`).
* **C76** `New` of a map type does not refuse an array with an odd number of elements, a text, a binary and so on: these are pointers to Go structs, so
  `mapFromArgs` makes a map of their private fields; and a repeated key gives two entries (`C76_map_violated`).
* **C77** `Min` and `Max` of a case insensitive string type are the length of its own text, but texts of other lengths fold to it; a variadic tuple type with
  a minimal size is `Unbounded`; the empty struct type has `Max` `math.MaxInt64`; `ElementType` of a tuple type or an exact array is an `allOf` type, which
  the elements are no instances of; `KeyType` of a struct type ignores that other keys are allowed; `Max` of the type of all floats is below infinity
  (`C77_ci_violated`, `C77_unbounded_violated`, `C77_element_violated`, `C77_float_violated`).
* **C78** `New` of a named type without a checker does not check what the constructor returns; `New` of the exact type of a value with a parameterized type
  always panics (the type assertion at named.go:257), and `New` of an exact type returns values that are not its instances; the generic type of such an exact type
  still has its parameters; a type with an interface is assigned by its implementation, so it can be assigned to a type that refuses some of its instances
  (`C78_new_violated`, `C78_exact_new`, `C78_exact_new_violated`, `C78_generic_violated`, `C78_sound_violated`).
* **C79** an empty array as argument is written `name{}` and read as an empty map; the text of a type with parameters, `name[0,9]`, is a syntax error;
  so is a value of a type the name of which is a word of the language (`C79_violated`).
* **C80** a value of a named type the argument of which is an empty map is decoded as the type; an argument map with the key `__value` is replaced by what
  is at that key, one with the key `__type` by another type or a panic; a type with parameters loses them (`C80_violated`); the keys of an argument map are emitted
  as they are, so JSON gets keys that are no strings (`C80_keys_violated`).
* **C81** `files=map[string](int|files)`, the example of docs/types.md, accepts `{"a":{"b":"x"}}`; the type `data` that is built in accepts `[[/x/]]`; of a
  linked list `node={value:int,next?:node|nil}` only the first node is checked. The guard reports a hit when the type and the value have both been seen, but not
  together (`C81_files_violated`, `C81_data_violated`, `C81_list_violated`). `x=x|int` on a string, `x=![]x` and `x=[]sensitive[x]` on values that contain themselves
  overflow the stack (`C81_diverges`).
* **C82** `x=[]x` is equal to `[][]int`, but not the other way round; `x=[1,5][2,5]x` and `y=[1,5][2,5][1,5]y` are equal both ways but not the same;
  `int|[](string|(int|[]string))` is equal to `y=int|[](string|y)`; `x=[]x` and `[]x` are equal and have different hash codes; the hash code of `x=[]!x` overflows the stack,
  and with it the parser, which puts each named type into a map (`C82_cut_violated`, `C82_both_violated`, `C82_operands_violated`, `C82_hash_violated`, `C82_hash_diverges`,
  `C82_equals_diverges`). Without any cycle: of `u=[](string|int)`, `a=int|[](string|u)` and `b=int|u`, `a` is equal to `b` (`C82_shared_violated`).
* **C83** `x=[]x` and `y=[]y` are the same, but `x.Assignable(y)` never returns, since array types drop the guard; neither does `int.Assignable(x)` for `x=int|x`.
  `files=map[string](int|files)` is assignable from `map[string](string|regexp)`, the built-in `data` from `string|[]regexp` and from
  `map[string]map[string]regexp`, and `a=map[string]map[any]a` from `b=map[string]map[int]map[string]b` (`C83_array_violated`, `C83_operand_violated`,
  `C83_files_violated`, `C83_data_violated`, `C83_periods_violated`).
* **C85** `UnmarshalJSON` ignores what follows the first value: `[true] x,]` is read as `[true]`; bytes that are not UTF-8 and surrogates without a partner
  are read as U+FFFD (`C85_rest_violated`, `C85_utf8_violated`).
* **C86** an object with a member `__type` is read as a type or not at all, one whose first member is `__ref` as another part of the text or not at all, and an
  integer of more than 64 bits as a float (`C86_type_violated`, `C86_ref_violated`, `C86_big_violated`).
* **C87** the Go type of `{a: int, ...}` is `map[string]int64`, which has no place for the entries that are not declared (panic in `ReflectTo`); `ReflectType` of
  `map[[]int]string` panics; a time in a variable of the Go type of `time|string` comes back as a native value (`C87_violated`).
* **C88** `StructMapTypeFromMap` panics for `{a: "nil"}`, where all entries are required and exact and one is nil, but not if others are allowed (`C88_nil_violated`).
* **C89** a root loader with a name: the absolute names of its namespaces begin with that name, and it finds nothing by them (`C89_violated`).
* **C90** MaxInt64 made a float and back an integer is MinInt64, 2^53+1 is 2^53 (`C90_violated`); NaN, infinities and floats beyond 2^63 make an integer (`C90_beyond`).
* **C91** the range from -MaxFloat64 to MaxFloat64 is the type of all floats: with MaxFloat64 also when exclusive, infinities and NaN (`C91_all`).
* **C92** `1.5.` is refused because of an unexpected dot, but `1.5..` is fine (`C92_dot_violated`).
* **C94** the column is too large for strings, regexps with escapes and numbers with a plus sign, and one more than it is after the first line (`C94_violated`).
* **C95** without `RichData` a type is not refused but goes out as a map `{__type: …}` (`C95_violated_types`).
* **C56** the entry of a map that contains the map is printed once more inside itself before the marker comes (`C56_entry_violated`).
* **C96** a function that returns `(a&b)|c` is printed as `func() (a&b)|c`, and the parentheses are read as those around the types returned, so that this is the union of a function and `c`; and `func() a|b` is the text of both the function that returns `a|b` and the union of `func() a` and `b` (`C96_violated`).
* **C97** `ThawedCopy` of an array (and so `WithAll`) that has an entry of a map as element replaces the value in that map, even if the map is frozen (`C97_frame_violated`).
* **C99** `HashCode` of a native that holds a pointer in a cycle of structs never returns (`structHash` follows pointers without remembering them), although `Equals` compares such pointers; that of a native `uintptr` panics (`reflect.Value.Pointer` of a `Uintptr`); that of a struct with a non-empty slice in an unexported field panics (its elements become natives, which cannot be frozen). `C99_returns_violated`, `C99_refl_violated`.
* **C100** native types are assignable as Go's types are, which is not transitive: `struct{X int}` is assignable to `A` and `B` to `struct{X int}`, but `B` is not assignable to `A`, so an instance of the former need not be one of the latter. `HashCode` of `DefaultNativeType` dereferences nil. `C100_assignable_violated`, `C100_hash_violated`.
* **C101** an error made of a Go error equals a `typeError`, `sizeError` or `mapKeyError` with the same message, but not the other way round, and with another hash code. `errw.Unwrap` skips the Go error: `errors.Is(vf.Value(e), e)` is false. `FromValue` into a `*error` yields a pointer to the variable in the `errw`: assigning through it changes the value. `C101_symmetric_violated`, `C101_is_violated`, `C101_pointer_violated`.
* **C102** a name that a later call of `AddAliases` gives to another type stays the name of the type that had it: `GetName(t1)` is `a` although `GetType(a)` is `t2`, so printing `t1` writes a name that is read back as `t2`. `C102_stale_name`.
* **C103** the type of a Go function equals the function type that is read from its text, but not the other way round (`functionType` has a `deepEqual`, `exactFunctionType` has none). Closures of one function literal are equal, since the address of the code is compared, though they give different results. `C103_one_way`, `C103_closures_differ`.
* **C104** `tf.CiString` keeps the lower case of its text and compares with `strings.EqualFold`; the lower case of İ (U+0130) is i, and the two are not equal under folding, so that type accepts i and not İ. `C104_ci_violated`.
* **C105** two loaders with different finders are equal until they have loaded something (`C105_answers_violated`), the name doesn't count, and a loader with only entries is never equal to one with a lock (`C105_name_violated`). `ExtractInitArg` of a loader with a finder hands out the map that the loader uses: a program that puts into it changes what the loader answers (`C105_exposed_violated`), and a loader made from it shares it with the first (`C105_copy_shares_violated`). `Equals`, `HashCode` and `initMap` of such a loader also read its maps without taking its lock; that race is not modelled. `ChildType` is registered for the Go type of `MutableType` (loader.go:303), so there is no named type for a `*childLoader`; C78 has what that means.
* **C106** a type is an instance of `type[T]` if `T` is assignable from it, but `type[T]` is assignable from `type[U]` only if `T` and `U` are equal: `type[any]` accepts `int` and isn't assignable from the type of `int`, and of two equal conjunctions in another order the one does not accept what the other does although their types are assignable. `C106_violated`.
* **C107** refused although every value is accepted: `float` from `1.0|2.0` (no look into unions, float.go:177-183), `int` from `int&any` (every operand has to be accepted, ternary.go:65-74), `0..5|6..10` from `0..10`, `true|false` from `bool`, `5` from `5...6`, `map` from a struct type (map.go:1146-1152), `[]string` from the type of the empty array and from `[0,0]int`, the type of `{1}` from the tuple `{1}`. `C107_violated`.
* **C108** a callback that removes the current entry and adds a new one keeps the loop going forever (`C108_endless_violated`); one that removes the current entry and the next one is still called for the next one (`C108_removed_violated`); whether an added entry is visited depends on the capacity, since `resize` makes all nodes anew and the loop goes on through the old ones (`C108_added_violated`), with their old values (`C108_stale_violated`).
* **C109** a callback that removes elements is then called with Go's `nil` for the last indexes and misses elements (`C109_removed_violated`); one that inserts is called for the same element again, or not, depending on the capacity (`C109_inserted_violated`); whether replaced elements are seen after an `Add` depends on the capacity (`C109_stale_violated`).
* **C110** a published type whose name occurs in a text that is being read is empty for a moment, so that others may see it accept nothing, or everything (`C110_seen_violated`); aliases in `sensitive[...]` and function types stay (`C110_opaque_violated`); naming the exact type of an array that contains itself does not end (`C110_endless_violated`); a call that fails because of an unknown name leaves the types it was in empty (`C110_failed_violated`).
* **C111** after an open range of floats the next token is swallowed, whatever it is: `1.5.. )` is accepted and `(1.5..)` refused (`C111_swallowed_violated`); `1E5..2` is refused (`C111_exponent_violated`); exclusive ranges without an end do not accept the greatest integer, the exclusive range over all integers does, and ranges over all finite floats accept infinite ones and NaN (`C111_full_violated`).
* **C11** nil is less than a map and the map less than nil, so that sorting exchanges them (`C11_nil_violated`).
* **C32** `Validate` panics for the exact type of a map with a key that is nil or sensitive (`C32_keys_violated`).
* **C112** types are not frozen with the collections that hold them: a frozen array with the type of a mutable one in it changes (`C112_frozen_violated`), a tuple type made of types of mutable arrays has a frozen array in it that holds them (`C112_tuple_violated`), and a map loses the entry whose key is such a type (`C112_keys_violated`).
* **C113** the name in dgo of a name with `::` has dots in it, which dgo does not read as a name (`C113_read_partial`); `type Int = …` makes a type with the name `int`, which dgo reads as the type of integers (`C113_keyword_violated`); the character 6 in a pcore text is a name without a text, and reading it fails with a runtime error for the index of a slice (`C113_control_violated`).
* **C114** sizes of a `Callable` are read and then only used to tell whether the tuple is variadic: the functions take the numbers of arguments that were written only if both are the number of the types (`C114_sizes_partial`, `C114_block_partial`); `Callable[0, 0, B]` takes any number of blocks (`C114_block_violated`); `Callable[]` and `Callable[[], R]` fail with a runtime error for the index -1 (`C114_empty_violated`).
* **C115** nothing is equal to arguments, not even the arguments themselves, and nothing can be compared to them (`C115_itself_violated`, `C115_compare_violated`); they are instances of `any` and `[]any` only, not of their own type (`C115_instance_violated`); as elements they are not flattened and make no entries (`C115_elements_violated`); `ArgumentsFromArray` of a mutable array shares its storage, so that frozen arguments change (`C115_frozen_violated`).
* **C116** asking whether a text is an instance of the type `dgo` adds the types that it declares to the default aliases: asked again, the same text is no instance, and no other text that declares the name (`C116_twice_violated`), while texts with the name that were refused are accepted (`C116_unknown_violated`).
* **C117** an entry equals a struct entry that does not equal it (`C117_equal_violated`); a required and an optional entry are not equal and have equal types (`C117_type_violated`); the frozen copy of a struct entry is a plain one, so that `vf.Values(e).IndexOf(e)` is -1 (`C117_copy_violated`); an entry with a mutable key says that it is frozen (`C117_key_violated`); `ToMapFromEntries` refuses the entries of structs and of `vf.MapEntry` (`C117_to_map_violated`).
* **C118** two times that are 100 ns apart in 2020 have the same seconds, although nanosecond precision is documented (`C118_precision_violated`); one instant in zones in which the year is 2261 and 2262 has different seconds (`C118_equal_violated`); a whole second in 2116 does not have exactly its seconds (`C118_whole_violated`); a time in the year 294247 has negative ones (`C118_far_violated`); half a second before 1970 is the integer -1, and 0 if it is made a float first (`C118_int_violated`).
* **C119** the text of a time in a zone with seconds in its offset is read as another instant (`C119_zone_violated`), that of a time before the year 0 or after 9999 panics (`C119_year_violated`).
* **C120** a range of floats with a lower bound of a million or more, or below 0.0001, is printed as a text that the lexer refuses (`C120_range_violated`); `Ftoa` adds `.0` to `NaN`, `+Inf` and `-Inf` (`C120_nan_violated`).
* **C121** a pointer to a Go value does not equal the value it becomes, a nil map does not equal nil, and a time equals a `*time.Time`, which becomes a native value (`C121_pointer_violated`); a Boolean does not compare with a Go Boolean, nor a Boolean or a string with a Go nil (`C121_compare_violated`); Go slices and maps are no instances of the types of arrays and maps, and so are instances of their negations (`C121_collection_violated`); the largest `uint64` is an instance of the integer type (`C121_largest_violated`).
* **C122** `hstring.HashCode` reads the kept hash code twice; under the Go memory model the second read may miss what the first one found, and 0 is returned (`C122_reordered_violated`).
* **C123** the type of an empty array is not assignable to `[]int`, that of {1.5, 2.5} not to `[]float`, and that of a sensitive 3 not to `sensitive[1..5]`, though the values are instances; those of {1, "a"}, {3, 9} and {{true}} are assignable to `[]!int`, `[](int^1..5)` and `{[]int|[]string}`, though the values are no instances (`C123_empty_violated`, `C123_floats_violated`, `C123_sensitive_violated`, `C123_not_violated`, `C123_one_violated`, `C123_tuple_violated`).
* **C30** docs/types.md says that the sizes of a string type count characters; they count bytes, so "é" is no instance of `string[1,1]` (`C30_characters_violated`; `C30_characters_partial` for ASCII).
* **C79** binaries and regular expressions are written as they are: the text of a value whose argument is the bytes d7 6d f8 is read as one with the argument 1234, and times as arguments are not read at all (`C79_binary_violated`, `C79_time_violated`).
* **C124** docs/types.md calls `0..` "a positive integer", but 0 is an instance (`C124_positive_violated`); it says that `/^Ap/&string[20]` is "any string that is 20 characters long and starts with the letter 'p'", but 20 is a minimum, so that longer strings are instances (`C124_long_violated`).
* **C125** a carriage return is not a blank for the lexer, so that a type expression with line ends as Windows has them is refused (`C125_return_violated`).
* **C126** if the type of a string has a name, as after `x="a"`, a struct type with the key `a` is printed with the name as its key, `{x:int}`, and read back with the key `x` (`C126_key_violated`); `AddAliases` takes names that are words of the language or no identifiers, and what is printed with them is read as another type or not at all (`C126_word_violated`, `C126_blank_violated`).
* **C127** `string` is not assignable from `string&!"a"`, as a conjunction is only accepted if all of its operands are (`C127_conjunction_violated`); `float` is assignable from no combination of types, such as `1.0|2.0` (`C127_float_violated`), `map[any]any` from no type of structs (`C127_struct_violated`); every kind is assignable from `typ.AllOf`, which accepts all values (`C127_nothing_violated`).
* **C73** the types of `**T` and `*interface{}` have instances that cannot be put in such a variable (panic), and not the nil that is read
  from one; nil slices, nil maps, nil regexps, `[]byte`, `uint64` above MaxInt64 and `dgo.Value` variables are read as values that their
  type does not have.  **C74** function types are covariant in their parameters, so `func(any)` has a `func(string)` as an instance, and
  a variadic type has functions as instances that need more arguments than it says.

### C35: types that are not read back (outside of `RtTy`)

* an element type of an array or a value type of a map that is a negation or a case insensitive string: `[]!string` and
  `[]~"x"` are printed without parentheses and rejected.
* the empty tuple `{}` is read as the empty struct.  `{nil}`, and exact arrays and maps with nil in them, panic.
* keys of exact maps that are booleans are read as strings (`{true:1}`); optional keys that are not strings
  (`{1?:int}`) are read as strings.
* `sensitive[1]`, `sensitive["a"]`, `sensitive[nil]` panic.
* `type[type]` of a meta type; sized or exact binaries, exact times and regular expressions: their texts are not types.
* strings with characters outside C36, patterns outside C37.
* float ranges that are open at the top take away the token that follows; bounds that print with an exponent; NaN and Inf.
* a string type with a negative minimum; `allOfValue` is read as `allOf`; exact arrays with sensitive values are read as tuples.
* a tuple whose element is an exclusive range without lower bound: `{...5}` is read as a variadic tuple.

## Assignable

The recursion guard of `internal/compare.go` answers true once a type on each side has been met before, not when the *pair* has.
Its flags stay set on the guard, so comparisons that follow are taken for recursions as well.  `Types/Assign.lean` models this
function by function, with fuel; `AssignFuel.lean` proves that the fuel always suffices.

* **C26** is false: `C26_violated` lists eight pairs of types with a value each: the guard (`[]int|nil` from `[]string|nil`,
  `{string,int}|nil` from the type of `{1,2}`), variadic tuples whose element types are not compared, structs that allow
  further keys, `oneOf`, `not`, and `allOf` of no types.  `C26_sound_partial` and `C26_sound_nested_partial` prove the claim
  where the guard is not hit: the conditions `L1`, `R1`, `L2`, `R2` say where operations and types with parts may stand,
  `Lnode` and `Rnode` exclude the other witnesses.  Missing: everything outside of these, as types that share parts.
* **C25** is proved for integers when a proper range is assigned to.  `5..5` is not assignable from `5...6` although these
  accept the same (`C25_exact_violated`), nor an inclusive range of floats from an exclusive one (`C25_float_violated`);
  a NaN for a bound makes it unsound (`C25_nan_violated`).
* **C27**: reflexive but for NaN bounds.  Equal types need not be assignable (`C27_equal_violated`).  Transitivity fails: the
  type of all maps is not assignable from struct types (`C27_struct_violated`), and sizes of case insensitive strings
  (`C27_ci_violated`).  It is proved for scalars, arrays, maps and sensitive types (`C27_transitive_partial`), and with
  unions and tuples in the third type from C26 and C107 (`C27_transitive_values_partial`).
* **C58** fails for types that contain each other, as the objects seen are kept for one side only, and for sensitive values
  in exact types (`C58_violated`); `Equals` is not symmetric (`C58_asymmetric`).
* `asg_generic` (AssignSimple.lean) shows that the simpler function that `Generic` uses in the model is `Assignable`.

## Wrong programs

`seeded/LOG.jsonl` lists edits of the model in a scratch copy, and which theorems noticed.  Where none did, a theorem was
added or made stronger; the field `tightened` names it.
