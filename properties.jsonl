{"id": "C01", "title": "A mutable Map behaves as an insertion-ordered dictionary", "statement": "Start from an empty mutable Map of any requested capacity and apply any sequence of Put, PutAll, Remove, RemoveAll, Get, ContainsKey, Len and iterations. Every call returns exactly what an insertion-ordered dictionary would return: Put and Remove return the previous value or nil, Get returns the value most recently stored under an equal key, Len is the number of distinct keys, and iteration lists each key once.", "quantifier": "all initial capacities, all finite sequences of operations, all keys and values, all hash functions consistent with Equals", "why_tests_cant": "The number of operation sequences, table sizes and collision patterns is unbounded; a defect can sit in a single resize or bucket-unlink path that a sample of sequences never reaches.", "anchors": ["internal/map.go:hashMap.Get", "internal/map.go:hashMap.Put", "internal/map.go:hashMap.PutAll", "internal/map.go:hashMap.Remove", "internal/map.go:hashMap.RemoveAll", "internal/map.go:hashMap.resize", "internal/map.go:MapWithCapacity"]}
{"id": "C02", "title": "Map iteration order is the order of first insertion", "statement": "EachEntry, Keys and Values always list the entries in the order in which their keys were first added; overwriting the value of a key keeps its position, removing a key keeps the relative order of the others, and re-adding a removed key places it last. Growth of the internal table never reorders entries.", "quantifier": "all finite histories of Put, PutAll, Remove and RemoveAll, all hash functions", "why_tests_cant": "Order can be broken only at particular combinations of resizes, collisions and removals at head, middle or tail of the chain; the combinations are unbounded.", "anchors": ["internal/map.go:hashMap.Put", "internal/map.go:hashMap.Remove", "internal/map.go:hashMap.resize", "internal/map.go:hashMap.EachEntry", "internal/map.go:hashMap.Keys", "internal/map.go:hashMap.Values"]}
{"id": "C03", "title": "With, Without, WithoutAll, Merge, Map and Copy leave the receiver untouched and produce the documented map", "statement": "None of the non-mutating Map operations changes what can be observed of the receiver or of the argument. The result holds: With - the receiver's entries with the one association added or overwritten; Without and WithoutAll - the receiver's entries minus the given keys; Merge - both maps with the argument having priority; Map - the same keys with mapped values; Copy - the same entries.", "quantifier": "all maps, all keys, values, argument maps and key arrays", "why_tests_cant": "The claim is about every receiver and every argument, including empty maps, nil values and self-merge, and it is about absence of a change that a test would have to look for everywhere.", "anchors": ["internal/map.go:hashMap.With", "internal/map.go:hashMap.Without", "internal/map.go:hashMap.WithoutAll", "internal/map.go:hashMap.Merge", "internal/map.go:hashMap.Map", "internal/map.go:hashMap.Copy"]}
{"id": "C04", "title": "Maps derived from one another do not share mutable state", "statement": "After a map has been derived from another with Copy(false), With, Without, Merge or Map (and the derived map is a distinct object), no later Put, Remove, PutAll or RemoveAll on either map can be observed through the other.", "quantifier": "all pairs of maps in a heap, all later histories of operations on both", "why_tests_cant": "Aliasing of list nodes shows only for particular interleavings of later mutations on two maps; tests compare at a few points only.", "anchors": ["internal/map.go:hashMap.resize", "internal/map.go:hashMap.Copy", "internal/array.go:array.ToMapFromEntries"]}
{"id": "C05", "title": "A map built from a list of keys and values has one entry per distinct key", "statement": "vf.Map, vf.MutableMap and Array.ToMap yield a map whose Len is the number of distinct keys, whose Get returns the value given last for the key and whose iteration lists each key once.", "quantifier": "all argument lists with an even number of elements", "why_tests_cant": "Duplicates and their positions range over an unbounded set; the existing tests use distinct keys only.", "anchors": ["internal/array.go:array.ToMap", "internal/map.go:mapFromArgs", "internal/array.go:array.ToMapFromEntries"]}
{"id": "C06", "title": "The internal table size is always a usable power of two", "statement": "For every requested capacity the table that backs a Map has a size that is a power of two, at least the requested capacity up to the maximum of 2^30, and every hash code selects a slot inside the table.", "quantifier": "all 64-bit capacities and all 64-bit hash codes, negative ones included", "why_tests_cant": "2^64 inputs for each argument; a wrong smear step shows up at few boundaries only.", "anchors": ["internal/map.go:tableSizeFor", "internal/map.go:hash"]}
{"id": "C07", "title": "Map equality ignores order and equal maps have equal hash codes", "statement": "Two maps are Equal exactly when they have the same keys with equal values, regardless of the order in which the entries were added, and then their HashCodes agree.", "quantifier": "all pairs of maps", "why_tests_cant": "Every permutation of every map would have to be tried, and hash agreement must hold for all value nestings.", "anchors": ["internal/map.go:mapEqual", "internal/map.go:hashMap.deepHashCode"]}
{"id": "C08", "title": "Equals is an equivalence relation on data values", "statement": "For nil, booleans, integers, floats other than NaN, strings, binaries, times, regexps, sensitive values, arrays and maps of such (without reference cycles) Equals is reflexive, symmetric and transitive.", "quantifier": "all triples of acyclic values of any nesting depth", "why_tests_cant": "Symmetry and transitivity quantify over pairs and triples of arbitrarily nested values.", "anchors": ["internal/compare.go:equals", "internal/compare.go:sliceEquals", "internal/map.go:mapEqual", "internal/array.go:array.deepEqual"]}
{"id": "C09", "title": "Equal values have equal hash codes", "statement": "If a.Equals(b) then a.HashCode() == b.HashCode(). Maps and Unique depend on it.", "quantifier": "all pairs of values, types included", "why_tests_cant": "A pair of equal values with different hashes makes lookups silently miss; such pairs are rare and the space of pairs is unbounded.", "anchors": ["internal/compare.go:deepHashCode", "internal/array.go:array.deepHashCode", "internal/map.go:hashMap.deepHashCode", "internal/ternary.go:anyOfType.HashCode", "internal/string.go:hstring.HashCode"]}
{"id": "C10", "title": "CompareTo is a consistent total order inside one kind", "statement": "Among booleans, among integers, among non-NaN floats, among strings, among binaries and among arrays of one such kind CompareTo is always decided, antisymmetric, transitive, and returns 0 exactly when Equals is true; nil is below everything.", "quantifier": "all triples of values of the same comparable kind", "why_tests_cant": "Order laws quantify over triples of arbitrarily long sequences.", "anchors": ["internal/compare.go:compare", "internal/array.go:array.deepCompare", "internal/integer.go:intVal.CompareTo", "internal/string.go:hstring.CompareTo"]}
{"id": "C11", "title": "Sort returns an ordered, stable permutation", "statement": "Array.Sort returns an array with exactly the same elements, ordered by CompareTo when all elements are of one comparable kind, keeping the relative order of elements that compare equal, and leaves the receiver unchanged.", "quantifier": "all arrays", "why_tests_cant": "All permutations of all lengths; the comparator mixes CompareTo with type identifiers and its being an order is what makes the result meaningful.", "anchors": ["internal/array.go:array.Sort"]}
{"id": "C12", "title": "Mutating a frozen collection panics and changes nothing", "statement": "Every mutator of a frozen Array (Add, AddAll, AddValues, Insert, Remove, RemoveValue, Set, Pop), and of a frozen Map (Put, PutAll with a non-empty argument, Remove, RemoveAll), panics, and the collection is observably the same as before the call.", "quantifier": "all frozen collections, all mutators, all arguments", "why_tests_cant": "A single mutator, path or argument that slips through is a violation; tests try one argument each.", "anchors": ["internal/array.go:array.Add", "internal/array.go:array.Set", "internal/array.go:array.Insert", "internal/array.go:array.Pop", "internal/map.go:hashMap.Put", "internal/map.go:hashMap.PutAll", "internal/map.go:hashMap.Remove", "internal/map.go:hashMap.RemoveAll"]}
{"id": "C13", "title": "The contents of a frozen array never change", "statement": "Once an array is frozen, the list of its elements is the same after any later sequence of calls on any arrays of the program, derived arrays included.", "quantifier": "all histories of array operations over a heap of arrays with shared backing storage", "why_tests_cant": "Backing storage sharing shows only under particular capacity and call order; the histories are unbounded.", "anchors": ["internal/array.go:array.With", "internal/array.go:array.WithValues", "internal/array.go:array.Slice", "internal/array.go:array.GoSlice"]}
{"id": "C14", "title": "Arrays derived with With are independent of each other", "statement": "If b is a.With(x) and c is a.With(y) then b still ends with x after c was made, and mutating a afterwards does not change b or c.", "quantifier": "all arrays, all spare capacities, all values, all later histories", "why_tests_cant": "Depends on spare capacity left by earlier appends, which tests do not control.", "anchors": ["internal/array.go:array.With", "internal/array.go:array.WithValues", "internal/array.go:array.WithAll"]}
{"id": "C15", "title": "Array mutators act as the corresponding list operations", "statement": "On a mutable array Add appends, Insert(i,v) places v at index i, Set(i,v) replaces and returns the old element, Remove(i) deletes and returns the element or returns nil out of range, RemoveValue deletes the first equal element and says whether it did, Pop deletes and returns the last element; Get, Insert and Set outside the bounds panic without changing the array.", "quantifier": "all mutable arrays, positions and values, all finite histories", "why_tests_cant": "Boundary positions and history-dependent capacity make the space unbounded.", "anchors": ["internal/array.go:array.Insert", "internal/array.go:array.removePos", "internal/array.go:array.RemoveValue", "internal/array.go:array.Pop", "internal/array.go:array.Set"]}
{"id": "C16", "title": "ContainsAll and SameValues count elements", "statement": "a.ContainsAll(b) is true exactly when every value occurs in b at most as often as in a; a.SameValues(b) is true exactly when a and b hold the same values the same number of times.", "quantifier": "all pairs of arrays", "why_tests_cant": "All multiset pairs; the greedy matching loop is wrong only for certain lengths and positions.", "anchors": ["internal/array.go:array.deepContainsAll", "internal/array.go:array.SameValues"]}
{"id": "C17", "title": "Unique keeps the first occurrence of each value", "statement": "Array.Unique returns the elements in order, without those that are equal to an earlier element: no two elements of the result are equal and every element of the receiver is equal to one of them.", "quantifier": "all arrays, all hash functions consistent with Equals", "why_tests_cant": "Collision patterns and lengths are unbounded.", "anchors": ["internal/array.go:array.Unique"]}
{"id": "C18", "title": "Flatten removes all nesting and keeps the order", "statement": "Array.Flatten returns the array of all non-array leaves in left-to-right order; no element of the result is an array.", "quantifier": "all arrays of any nesting depth", "why_tests_cant": "Nesting depth and shape are unbounded.", "anchors": ["internal/array.go:array.Flatten", "internal/array.go:flattenElements"]}
{"id": "C19", "title": "IndexOf, Select, Reject, Map, Reduce, All, Any and One agree with list semantics", "statement": "IndexOf is the least index of an equal element or -1; Select and Reject partition the elements in order; Any is the negation of All of the negation; One is true exactly when one element matches.", "quantifier": "all arrays, all predicates and mappers", "why_tests_cant": "Quantifies over all predicates and arrays.", "anchors": ["internal/array.go:array.IndexOf", "internal/array.go:array.Select", "internal/array.go:array.Reject", "internal/array.go:array.One", "internal/array.go:array.All", "internal/array.go:array.Any"]}
{"id": "C20", "title": "Freeze is deep and permanent", "statement": "After Freeze on an array or map, that collection and every array or map reachable from it through elements and values reports Frozen, and stays so; other collections are not affected.", "quantifier": "all object graphs, cyclic ones included", "why_tests_cant": "Graphs are unbounded, and permanence is a statement about every later history.", "anchors": ["internal/array.go:array.Freeze", "internal/map.go:hashMap.Freeze", "internal/map.go:mapEntry.Freeze"]}
{"id": "C21", "title": "FrozenCopy is a deeply frozen equal value and leaves the original as it was", "statement": "FrozenCopy of a frozen collection is the collection itself; otherwise it is a new collection, equal to the original, in which everything reachable is frozen, and the original is unchanged and still mutable.", "quantifier": "all acyclic object graphs in which everything reachable from a frozen collection is frozen", "why_tests_cant": "All graphs with any mixture of frozen and mutable parts.", "anchors": ["internal/array.go:array.Copy", "internal/map.go:hashMap.Copy", "internal/map.go:mapEntry.copyFreeze"]}
{"id": "C22", "title": "A frozen collection only reaches frozen collections", "statement": "Whatever operations are used to obtain it, a collection that reports Frozen contains no mutable collection at any depth, so its value can never change.", "quantifier": "all histories of collection operations", "why_tests_cant": "It is an invariant over all histories; one operation that stores an unfrozen value in a frozen result breaks it.", "anchors": ["internal/array.go:array.With", "internal/array.go:array.WithAll", "internal/array.go:array.Map", "internal/map.go:hashMap.With", "internal/map.go:hashMap.Map", "internal/map.go:hashMap.Merge"]}
{"id": "C23", "title": "ThawedCopy never alters its receiver", "statement": "ThawedCopy / Copy(false) of an array, a map or a map entry returns a mutable equal copy and leaves the receiver, including the identity and frozenness of its parts, as it was.", "quantifier": "all arrays, maps and map entries", "why_tests_cant": "A write to the receiver instead of the copy is visible only by identity or frozenness checks on the receiver.", "anchors": ["internal/map.go:mapEntry.ThawedCopy", "internal/map.go:hashNode.ThawedCopy", "internal/array.go:array.Copy"]}
{"id": "C24", "title": "Integer range types accept exactly the integers in the range", "statement": "The type made with bounds min and max, inclusive or exclusive, accepts an integer v exactly when min <= v <= max, or min <= v < max when exclusive, after swapping the bounds if they are given in reverse; equal bounds with an exclusive end are refused.", "quantifier": "all 64-bit bounds, both inclusivity flags, all 64-bit integers", "why_tests_cant": "2^192 combinations; the boundary cases MinInt64/MaxInt64 are special-cased in the code.", "anchors": ["internal/integer.go:IntegerType", "internal/integer.go:integerType.IsInstance"]}
{"id": "C25", "title": "Assignability of integer and float ranges is inclusion of ranges", "statement": "A range type is assignable from another range type, or from an exact number's type, exactly when every number accepted by the other is accepted by it.", "quantifier": "all pairs of range types", "why_tests_cant": "Inclusion is a statement about all numbers; four inclusivity combinations and the off-by-one at the exclusive end must be right for all bounds.", "anchors": ["internal/integer.go:integerType.Assignable", "internal/float.go:floatType.Assignable"]}
{"id": "C26", "title": "Assignability is sound for instances", "statement": "If t.Assignable(u) and u.Instance(v) then t.Instance(v).", "quantifier": "all types t, u and all values v", "why_tests_cant": "Three unbounded quantifiers over a recursive type language; the existing tests check particular pairs.", "anchors": ["internal/compare.go:Assignable", "internal/type.go:CheckAssignableTo", "internal/ternary.go:anyOfType.Assignable", "internal/not.go:notType.Assignable", "internal/array.go:tupleAssignableTuple", "internal/mapstruct.go:structType.DeepAssignable", "internal/map.go:sizedMapType.DeepAssignable"]}
{"id": "C27", "title": "Assignability is reflexive and transitive", "statement": "Every type is assignable from itself, and if t is assignable from u and u from w then t is assignable from w.", "quantifier": "all types and all triples of types", "why_tests_cant": "Triples of arbitrarily nested types.", "anchors": ["internal/compare.go:Assignable", "internal/ternary.go:allOfType.Assignable", "internal/ternary.go:oneOfType.Assignable"]}
{"id": "C28", "title": "Every value is an instance of its own type", "statement": "v.Type().Instance(v) is true.", "quantifier": "all values other than NaN and containers of NaN", "why_tests_cant": "All values of any nesting.", "anchors": ["internal/exact.go:exactType.Instance", "internal/compare.go:equals", "internal/meta.go:metaType.Instance"]}
{"id": "C29", "title": "Logical type operators have their Boolean meaning", "statement": "AnyOf accepts a value exactly when at least one operand does, AllOf exactly when all do, OneOf exactly when one does, Not exactly when its operand does not; the constructors' simplifications (no operand, one operand, double negation) preserve that meaning.", "quantifier": "all operand lists and all values", "why_tests_cant": "All operand lists of any length and all values.", "anchors": ["internal/ternary.go:AnyOfType", "internal/ternary.go:AllOfType", "internal/ternary.go:OneOfType", "internal/not.go:NotType", "internal/ternary.go:oneOfType.DeepInstance"]}
{"id": "C30", "title": "Sized string, binary, array and map types accept exactly the sizes in range", "statement": "The type made with sizes min and max accepts a value exactly when its length lies between them, after negative sizes are treated as zero and reversed sizes are swapped; element, key and value constraints are checked for every member.", "quantifier": "all sizes, all values, all member types", "why_tests_cant": "Unbounded sizes, and the clamping is written four times in slightly different ways.", "anchors": ["internal/string.go:SizedStringType", "internal/binary.go:SizedBinaryType", "internal/array.go:newArrayType", "internal/map.go:newMapType"]}
{"id": "C31", "title": "Tuple types accept exactly the matching arrays", "statement": "A tuple type accepts an array exactly when the lengths agree and every element is an instance of the type at its position; a variadic tuple accepts any number of trailing elements, zero included, of the last type.", "quantifier": "all tuple types, all arrays", "why_tests_cant": "All lengths and element types, including the empty variadic tail.", "anchors": ["internal/array.go:tupleInstance", "internal/array.go:tupleType.DeepInstance"]}
{"id": "C32", "title": "Struct map types accept exactly the matching maps, and Validate agrees", "statement": "A struct map type accepts a map exactly when each required key is present, each present declared key holds an instance of its declared type, and there are no other keys unless additional keys are allowed. Validate reports no error exactly when Instance is true, and ValidateVerbose returns the same verdict.", "quantifier": "all struct map types and all maps", "why_tests_cant": "Two independently written checkers have to agree for all types and maps.", "anchors": ["internal/mapstruct.go:structType.DeepInstance", "internal/mapstruct.go:validate", "internal/mapstruct.go:validateVerbose"]}
{"id": "C33", "title": "New produces an instance of the type or panics", "statement": "For each type with a New method, New(arg) either panics or returns a value that is an instance of the type.", "quantifier": "all types, all arguments", "why_tests_cant": "All pairs of types and arguments.", "anchors": ["internal/integer.go:newInt", "internal/string.go:newString", "internal/array.go:newArray", "internal/map.go:newMap", "internal/sensitive.go:sensitiveType.New", "internal/binary.go:newBinary"]}
{"id": "C34", "title": "Conversion of Go integers keeps the number or panics", "statement": "vf.Integer/Value of a Go integer of any width and signedness yields the same number, or panics if the number does not fit in 64 bits signed.", "quantifier": "all Go integers of all integer kinds", "why_tests_cant": "2^64 values; the faulty ones are exactly those no test picks.", "anchors": ["internal/integer.go:ToInt"]}
{"id": "C35", "title": "Type expressions print to text that parses back to an equal type", "statement": "Parsing the string form of a type yields an equal type.", "quantifier": "all types in the printable type language", "why_tests_cant": "Recursive language with precedence: all nestings of |, &, ^, !, lists, maps, tuples, functions and literals.", "anchors": ["stringer/typestring.go:typeBuilder.buildTypeString", "parser/parser.go:parser.anyOf", "parser/parser.go:parser.oneOf", "parser/parser.go:parser.allOf", "parser/parser.go:parser.unary"]}
{"id": "C36", "title": "String literals survive printing and parsing", "statement": "The quoted form of a string parses back to the same string.", "quantifier": "all strings", "why_tests_cant": "All strings over all code points; escapes are handled by two unrelated pieces of code.", "anchors": ["parser/lexer.go:ConsumeString", "stringer/typestring.go:typeBuilder.stringExact"]}
{"id": "C37", "title": "Regular expression literals survive printing and parsing", "statement": "The slash-quoted form of a regular expression parses back to the same expression.", "quantifier": "all regular expression sources", "why_tests_cant": "All sources, backslashes and slashes included.", "anchors": ["parser/lexer.go:ConsumeRegexp", "internal/regexp.go:RegexpSlashQuote"]}
{"id": "C38", "title": "Integer literals and ranges parse to the number they denote", "statement": "The printed form of any 64-bit integer or integer range lexes to one number token (or range) that denotes the same number(s).", "quantifier": "all 64-bit integers and ranges", "why_tests_cant": "2^64 literals, with MinInt64 and MaxInt64 as special cases.", "anchors": ["parser/lexer.go:ConsumeNumber", "parser/parser.go:parser.integer", "stringer/typestring.go:typeBuilder.writeIntRange"]}
{"id": "C39", "title": "The lexer is total and makes progress", "statement": "On any input text tokenisation terminates with an end token or an error, and every token other than the end token consumes at least one character.", "quantifier": "all input strings", "why_tests_cant": "All strings.", "anchors": ["parser/lexer.go:nextToken", "util/reader.go:StringReader.Next"]}
{"id": "C40", "title": "The string reader yields the text's characters in order", "statement": "Successive Next calls return the characters of the text in order and then 0 for ever; Peek and Peek2 return what the next one or two Next calls will return, without consuming; positions (line, column) count what was consumed.", "quantifier": "all texts, all interleavings of Next, Peek, Peek2 and Rewind", "why_tests_cant": "All texts and call sequences.", "anchors": ["util/reader.go:StringReader.Next", "util/reader.go:StringReader.Peek", "util/reader.go:StringReader.Peek2", "util/reader.go:StringReader.Rewind"]}
{"id": "C41", "title": "No alias added concurrently is lost", "statement": "If several goroutines add aliases to the shared alias map, then after all of them have returned every added name resolves to a type that was added under that name.", "quantifier": "all numbers of goroutines, all schedules of the snapshot / collect / publish steps", "why_tests_cant": "Schedules are unbounded and a lost update needs a particular interleaving.", "anchors": ["internal/alias.go:AddAliases", "internal/alias.go:aliasMap.Collect"]}
{"id": "C42", "title": "A named type is registered at most once", "statement": "However many goroutines register a type under one name, exactly one registration succeeds, all others panic, and every later lookup returns the winner.", "quantifier": "all schedules of concurrent registrations and lookups", "why_tests_cant": "Needs all interleavings.", "anchors": ["internal/named.go:NewNamedType", "internal/named.go:NamedType"]}
{"id": "C43", "title": "A loader never changes its answer for a name", "statement": "Once Get or Load has returned a value for a key on a loader, every later Get of that key on that loader returns an equal value; concurrent first loads agree or panic, and a found value is asked from the finder at most once after it has been cached.", "quantifier": "all schedules of concurrent Get calls, all finders (nondeterministic ones included)", "why_tests_cant": "Needs all interleavings of the read-lock / find / write-lock steps and all finder behaviours.", "anchors": ["loader/loader.go:loader.Get", "loader/loader.go:loader.add"]}
{"id": "C44", "title": "Namespaces are created once", "statement": "Concurrent Namespace calls for one name all obtain the same namespace loader or panic; once obtained, the same loader is returned for ever.", "quantifier": "all schedules, all namespace creators", "why_tests_cant": "Needs all interleavings.", "anchors": ["loader/loader.go:loader.Namespace"]}
{"id": "C45", "title": "A child loader extends but never overrides its parent", "statement": "For every name the parent can load, the child loads the parent's value; for other names the child's own value; names with namespace segments are resolved segment by segment in the same way.", "quantifier": "all loader trees and names", "why_tests_cant": "All trees of namespaces and all paths.", "anchors": ["loader/loader.go:childLoader.Get", "loader/loader.go:childLoader.Namespace", "loader/loader.go:load"]}
{"id": "C46", "title": "Streaming with de-duplication reproduces the value", "statement": "Streaming a value to a collector yields an equal value at every de-duplication level, and parts that were shared in the source at level MaxDedup are emitted once: every reference index points at an item already emitted.", "quantifier": "all object graphs, all de-duplication levels, all string thresholds", "why_tests_cant": "All sharing patterns; reference indices of producer and consumer must stay in step over the whole stream.", "anchors": ["streamer/streamer.go:context.emitData", "streamer/streamer.go:context.process", "streamer/basiccollector.go:BasicCollector.AddRef", "streamer/basiccollector.go:BasicCollector.AddMap"]}
{"id": "C47", "title": "The JSON encoder writes well-formed JSON", "statement": "For every stream of consumer calls produced by the streamer the bytes written form one JSON text: commas and colons are placed exactly where the grammar requires.", "quantifier": "all values", "why_tests_cant": "All nestings; the delimiter state machine has states that are reachable only through particular nestings.", "anchors": ["streamer/json.go:jsonEncoder.delimit", "streamer/json.go:jsonEncoder.AddArray", "streamer/json.go:jsonEncoder.AddMap"]}
{"id": "C48", "title": "JSON encoding followed by decoding gives an equal value", "statement": "UnmarshalJSON(MarshalJSON(v)) equals v for plain data and for rich data (binary, time, sensitive, maps with non-string keys), with either dialect.", "quantifier": "all values, all sharing patterns, both dialects", "why_tests_cant": "All values and sharing patterns; reserved keys and references interact.", "anchors": ["streamer/json.go:MarshalJSON", "streamer/json.go:UnmarshalJSON", "streamer/decoder.go:dataDecoder.AddMap", "streamer/decoder.go:dataDecoder.decode"]}
{"id": "C49", "title": "A sensitive value is not revealed by printing", "statement": "The string form of a value depends on a sensitive part only through its presence: replacing the wrapped value by any other leaves the text unchanged.", "quantifier": "all values containing sensitive parts at any depth, all replacement values", "why_tests_cant": "Non-interference quantifies over pairs of secrets.", "anchors": ["internal/sensitive.go:sensitive.String", "util/erpindenter.go:erpIndenter.AppendValue"]}
{"id": "C50", "title": "Binary values are isolated from the bytes they were made from", "statement": "A frozen Binary never changes after creation, whatever is done to the byte slice it was made from or to slices obtained from it; text form and back gives equal bytes.", "quantifier": "all byte strings, all later writes", "why_tests_cant": "Aliasing over all histories, all byte strings.", "anchors": ["internal/binary.go:Binary", "internal/binary.go:BinaryFromEncoded", "internal/binary.go:binary.GoBytes", "internal/binary.go:binary.FrozenCopy"]}
{"id": "C51", "title": "Equality of cyclic structures terminates and is symmetric", "statement": "Equals on arrays and maps that contain themselves terminates, and a.Equals(b) is the same as b.Equals(a).", "quantifier": "all finite object graphs with cycles", "why_tests_cant": "All graph shapes.", "anchors": ["internal/compare.go:equals", "internal/compare.go:sliceEquals"]}
{"id": "C52", "title": "The indenter output is the concatenation of what was appended", "statement": "Without indentation an indenter's text is exactly the concatenation of the appended pieces; with indentation NewLine starts a fresh line with the current level and no line ends with blanks; reading the text twice gives the same text.", "quantifier": "all sequences of Append, AppendRune, Indent, NewLine and String", "why_tests_cant": "All call sequences.", "anchors": ["util/indenter.go:indenter.String", "util/indenter.go:indenter.NewLine", "util/indenter.go:indenter.Append"]}
{"id": "C53", "title": "No unresolved alias is left after AddAliases", "statement": "After AddAliases (or Collect) has returned, no name of the alias map stands for an unresolved alias.", "quantifier": "all sets of added types and aliases, all interleavings of calls", "why_tests_cant": "All ways in which added aliases can refer to each other.", "anchors": ["internal/alias.go:aliasMap.update", "internal/alias.go:aliasAdder.Replace", "internal/alias.go:AddAliases"]}
{"id": "C54", "title": "Parsing terminates on every text", "statement": "Parse returns a value or a type, or fails with an error, on every text; nesting and loops are bounded by the length of the text.", "quantifier": "all byte strings", "why_tests_cant": "All texts, in particular malformed and deeply nested ones.", "anchors": ["parser/parser.go:Parse", "parser/parser.go:typeExpression", "parser/parser.go:list", "parser/parser.go:params"]}
{"id": "C55", "title": "Text outside the language is rejected", "statement": "Parse accepts only texts of the type language: a character that starts no token of the language is an error wherever it stands outside of a string or regular expression, and nothing of the text is ignored.", "quantifier": "all byte strings", "why_tests_cant": "The texts that should be rejected are unbounded; tests reject a few.", "anchors": ["parser/lexer.go:nextToken", "parser/lexer.go:buildToken", "parser/parser.go:Parse"]}
{"id": "C56", "title": "Printing ends and shows shared values in full", "statement": "String and Indent of a value return, also when the value contains itself; the marker for recursion is printed exactly where a value is met inside itself, and a value that is only shared is printed in full each time.", "quantifier": "all object graphs, all indentations", "why_tests_cant": "All shapes of graphs, cyclic ones included.", "anchors": ["util/erpindenter.go:erpIndenter.AppendValue", "util/erpindenter.go:ToStringERP", "internal/array.go:array.AppendTo", "internal/map.go:hashMap.AppendTo"]}
{"id": "C57", "title": "An integer literal stands for the number it denotes", "statement": "A decimal, hexadecimal or octal integer literal is read as the number it denotes; a literal that does not denote a 64-bit signed integer is rejected.", "quantifier": "all literals", "why_tests_cant": "All numbers in three notations, and all malformed ones.", "anchors": ["parser/lexer.go:ConsumeNumber", "parser/parser.go:tokenInt"]}
{"id": "C58", "title": "Equal types accept the same values", "statement": "If t.Equals(u) then t.Instance(v) = u.Instance(v) for every v.", "quantifier": "all pairs of types, all values", "why_tests_cant": "Equality of types is recursive, uses a guard against recursion, ignores the order of operands and takes some types of different kinds for equal; the claim is about all values.", "anchors": ["internal/compare.go:equals", "internal/ternary.go:allOfType.deepEqual", "internal/array.go:tupleType.deepEqual", "internal/exact.go:deepExactType.deepEqual"]}
{"id": "C59", "title": "Types do not tell equal values apart", "statement": "If v.Equals(w) then t.Instance(v) = t.Instance(w) for every type t.", "quantifier": "all types, all pairs of equal values", "why_tests_cant": "Equal values can be built differently (order of keys, +0 and -0) at any depth; three unbounded quantifiers.", "anchors": ["internal/compare.go:Instance", "internal/exact.go:exactType.Instance", "internal/mapstruct.go:structType.DeepInstance"]}
{"id": "C60", "title": "Equal types have equal hash codes", "statement": "Two types that are Equals have the same HashCode, so that a type can be used as the key of a Map and be found again through an equal type.", "quantifier": "all pairs of types made by the type constructors", "why_tests_cant": "All type trees; the constructors simplify, so equal types can have been built in many ways.", "anchors": ["internal/compare.go:deepHashCode", "internal/ternary.go:anyOfType.deepHashCode", "internal/array.go:tupleHashCode", "internal/map.go:sizedMapType.deepHashCode", "internal/mapstruct.go:structType.deepHashCode", "internal/exact.go:exactType.HashCode"]}
{"id": "C61", "title": "Parsing pcore terminates on every text", "statement": "pcore.Parse returns a value or a type, or fails with an error, on every text; nesting and loops are bounded by the length of the text.", "quantifier": "all byte strings", "why_tests_cant": "All texts, in particular malformed and deeply nested ones.", "anchors": ["streamer/pcore/parser.go:Parse", "streamer/pcore/parser.go:list", "streamer/pcore/parser.go:hash", "streamer/pcore/lexer.go:nextToken"]}
{"id": "C62", "title": "A pcore type expression is read as the type it describes", "statement": "pcore.ParseType of a Puppet type expression yields a type whose instances are exactly the values that the expression describes: Integer[1,10] the integers from 1 to 10, Struct[{'a'=>T, Optional['b']=>U}] the hashes with a key a with a value of T and perhaps a key b with one of U, and so on, nested in any way.", "quantifier": "all type expressions over the built in types, all values", "why_tests_cant": "Expressions nest to any depth, and each describes infinitely many values.", "anchors": ["streamer/pcore/parser.go:element", "streamer/pcore/parser.go:tupleFromArgs", "streamer/pcore/parser.go:structType", "streamer/pcore/parser.go:optionalType", "internal/array.go:newArrayType", "internal/mapstruct.go:StructMap"]}
{"id": "C63", "title": "A pcore literal is read as the value it denotes", "statement": "pcore.Parse of the literal of a value made of undef, booleans, numbers, strings, regular expressions, arrays and hashes yields that value.", "quantifier": "all such values, nested to any depth", "why_tests_cant": "All values.", "anchors": ["streamer/pcore/parser.go:list", "streamer/pcore/parser.go:hash", "streamer/pcore/parser.go:identifier"]}
{"id": "C64", "title": "Layout of a pcore text does not matter", "statement": "Blanks, line breaks and comments between the tokens of a pcore text and the choice of quotes around a string have no effect on what it is read as.", "quantifier": "all texts, all layouts of them", "why_tests_cant": "Any layout of any text.", "anchors": ["streamer/pcore/lexer.go:nextToken", "streamer/pcore/lexer.go:consumeLineComment"]}
{"id": "C65", "title": "Text outside of the pcore language is rejected", "statement": "pcore.Parse accepts only texts of its language: a character that starts no token of the language is an error wherever it stands outside of a string, regular expression or comment, and nothing of the text is ignored.", "quantifier": "all byte strings", "why_tests_cant": "The texts that should be rejected are unbounded; tests reject a few.", "anchors": ["streamer/pcore/lexer.go:nextToken", "streamer/pcore/lexer.go:buildToken", "streamer/pcore/parser.go:Parse"]}
{"id": "C66", "title": "A value survives the way into a Go variable and back", "statement": "If vf.FromValue puts a value in a Go variable then vf.Value of that variable is an equal value.", "quantifier": "all values, all types of variables (booleans, numbers of all sizes, strings, times, regexps, slices, maps, pointers, interfaces, nested to any depth)", "why_tests_cant": "The combinations of values and types of variables are unbounded; tests use a handful.", "anchors": ["internal/value.go:ReflectTo", "internal/value.go:ValueFromReflected", "internal/integer.go:ReflectTo", "internal/array.go:ReflectTo", "internal/map.go:ReflectTo"]}
{"id": "C67", "title": "A Go value survives the way into dgo and back", "statement": "If a Go value is made a dgo value with vf.Value and put in a variable of its type with vf.FromValue, the variable holds a deeply equal value.", "quantifier": "all Go values made of booleans, numbers, strings, times, regexps, slices, maps, pointers and interfaces", "why_tests_cant": "Nested Go values of any type.", "anchors": ["internal/value.go:ValueFromReflected", "internal/value.go:FromValue", "internal/array.go:ArrayFromReflected", "internal/map.go:FromReflectedMap"]}
{"id": "C68", "title": "What is put in a Go variable has its type, and everything fits in an interface{}", "statement": "vf.FromValue puts in a variable only what has its type, at every depth, and does not panic when the variable is an interface{}.", "quantifier": "all values, all types", "why_tests_cant": "reflect checks types at run time only; a panic needs an unlucky combination of elements, keys and the type computed for them.", "anchors": ["internal/ternary.go:commonReflectTo", "internal/array.go:ReflectTo", "internal/map.go:ReflectTo"]}
{"id": "C69", "title": "A map made from a Go map has its entries, one for each key", "statement": "The map made from a Go map has as many entries as the Go map, no two with equal keys, each with the value of its key.", "quantifier": "all Go maps", "why_tests_cant": "Which keys become equal depends on the types of keys in the map.", "anchors": ["internal/map.go:FromReflectedMap"]}
{"id": "C70", "title": "The order of a map made from a Go map is predictable", "statement": "The order of the entries of a map made from a Go map does not depend on the order in which Go enumerates the map.", "quantifier": "all Go maps, all orders of enumeration", "why_tests_cant": "Go's order of enumeration is random; a test sees a few.", "anchors": ["internal/map.go:FromReflectedMap"]}
{"id": "C71", "title": "A Go struct is a map of its fields", "statement": "The map that vf.Map makes for a struct has one entry for each field, in the order of declaration; Get, ContainsKey, Len, Keys and iteration agree; Put assigns to the field that it names and to no other, and returns the previous value; operations that would add or remove entries, or assign to a frozen struct, panic and change nothing; With, Without, Merge and Map give what they give for the map with the same entries; a struct and a map are equal in both directions if and only if their entries are, and have one hash code then.", "quantifier": "all struct values, all sequences of operations", "why_tests_cant": "Field types, embedded structs, frozen and unaddressable structs and the order of operations combine without bound.", "anchors": ["internal/struct.go:structVal", "internal/map.go:Equals"]}
{"id": "C72", "title": "Which structs share storage with Go variables", "statement": "The map made for a pointer to a struct shows the variable and writes to it until it is frozen; after Freeze or FrozenCopy no program can change what it shows; a ThawedCopy shares nothing with what was there before, in neither direction; copies show the values of the original.", "quantifier": "all programs that create, copy, freeze, change and expose structs, slices and arrays, in any order", "why_tests_cant": "Aliasing shows only when a particular write follows a particular copy; there is no bound on the programs.", "anchors": ["internal/struct.go:Freeze", "internal/struct.go:FrozenCopy", "internal/struct.go:ThawedCopy", "internal/struct.go:ReflectTo", "internal/struct.go:GoStruct"]}
{"id": "C73", "title": "The dgo type of a Go type describes its variables", "statement": "typ.FromReflected makes a type for every Go type; a value that is an instance of that type can be put in a variable of the Go type (vf.FromValue does not panic) and read from it again; what is read from a variable of the Go type is an instance of the type.", "quantifier": "all Go types made of booleans, numbers, strings, times, regexps, slices, maps, pointers, interface{} and dgo interfaces; all values", "why_tests_cant": "Go types nest without bound and each nesting of a pointer, slice or map is a new case; tests look at a few types and never relate the type to the conversion.", "anchors": ["internal/type.go:TypeFromReflected", "internal/value.go:ReflectTo", "internal/value.go:ValueFromReflected"]}
{"id": "C74", "title": "Calling a Go function", "statement": "Call gives the body of a Go function one Go value for each argument, of the type of its parameter, and for a variadic function a slice with the arguments that remain; arguments that the function's In type accepts get there and can be read back; the results are what the body returns, instances of the Out type, and Go nil for nil; a wrong number of arguments panics; each instance of a function type can be called with the arguments that the type says.", "quantifier": "all signatures, variadic or not, all bodies, all arguments", "why_tests_cant": "Signatures, arguments and bodies combine without bound; the tests call five functions.", "anchors": ["internal/function.go:Call", "internal/function.go:exactFunctionTuple", "internal/function.go:functionTypeAssignable"]}
{"id": "C75", "title": "Generic types", "statement": "typ.Generic returns a type that accepts every instance of the type given; Generic of the result is the result; the generic type of an exact scalar accepts the values of its kind and no others, that of an exact array or map of scalars accepts exactly the arrays or maps whose members have the kind that all its members have; every value is an instance of the generic type of its type; types that are not exact are returned as they are.", "quantifier": "all types and values of any depth", "why_tests_cant": "The generic type is computed through nested types, assignability of the parts and equality of types; one example in the documentation is all that the tests have.", "anchors": ["internal/type.go:Generic", "internal/ternary.go:commonGeneric", "internal/array.go:tupleElementType", "internal/mapstruct.go:Generic"]}
{"id": "C76", "title": "New converts values as documented", "statement": "New of an integer type with a text and a radix of 2, 8, 10 or 16 gives the number that the text is a numeral of in that radix, if it has 64 bits and is an instance, and refuses all other texts and radices; the text of an integer made with the matching format is converted back to it. New of bool takes true, yes, y and false, no, n in any case and nothing else, and booleans made texts or integers are converted back. New of binary reads the text of a binary and the array of its bytes and refuses other arrays. New of an array gives the entries of a map; New of a map takes an array of keys and values and refuses what is no map.", "quantifier": "all texts, all 64-bit integers, all binaries, arrays and maps of any length", "why_tests_cant": "The tests convert a few literals; the claims are about all texts, including those that must be refused, and about round trips for every integer and binary.", "anchors": ["internal/integer.go:newInt", "internal/integer.go:intFromConvertible", "internal/boolean.go:newBoolean", "internal/string.go:newString", "internal/binary.go:newBinary", "internal/array.go:newArray", "internal/map.go:newMap", "internal/map.go:mapFromArgs"]}
{"id": "C77", "title": "What types say about their instances", "statement": "Min and Max of a type with a size bound the size of every instance; Unbounded tells exactly the types with no bound; an array or map type accepts exactly the arrays or maps with a size from Min to Max whose members are instances of ElementType, KeyType and ValueType; the members of an instance of any array, tuple, map or struct type are instances of these; an integer or float type accepts exactly the numbers from Min to Max (without the end if not Inclusive).", "quantifier": "all types of any depth and all values", "why_tests_cant": "The accessors are methods of many types, each with its own computation; tests look at a few types and never relate the answers to what Instance accepts.", "anchors": ["dgo/type.go:SizedType", "internal/array.go:ElementType", "internal/array.go:tupleElementType", "internal/map.go:KeyType", "internal/mapstruct.go:Min", "internal/mapstruct.go:Max", "internal/integer.go:IsInstance", "internal/float.go:IsInstance", "internal/string.go:Min"]}
{"id": "C78", "title": "Named types accept the values that their Go type or checker admits", "statement": "A named type without a checker has as instances exactly the values of named types whose Go type can be assigned to its interface (or implementation); with a checker, exactly what the checker accepts. New returns what the constructor made, and an instance. The name, Go type and extractor are the same for the parameterized and exact types made from it. Equality is by name and parameters (exact types: by value), an equivalence that agrees with the hash codes. Whatever has been registered and removed, NamedFromReflected finds a registered type with the Go type if there is one.", "quantifier": "all sets of definitions of named types, all Go types, all values, all sequences of registrations and removals, all orders of listing the registry", "why_tests_cant": "Constructors, extractors and checkers are functions of the user; tests register two or three types and try one value of each, never the exact, parameterized and generic types of one another.", "anchors": ["internal/named.go:defaultAsgChecker", "internal/named.go:Assignable", "internal/named.go:New", "internal/named.go:Equals", "internal/named.go:HashCode", "internal/named.go:Generic", "internal/named.go:NamedFromReflected", "internal/named.go:ExactNamed"]}
{"id": "C79", "title": "The text of a value of a named type is read back", "statement": "Parsing what ValueString of a named type writes gives the value that New of the type makes of the argument that the extractor found in the value; so the text of a value is read as that value if the constructor is the inverse of the extractor. A name alone is read as the type.", "quantifier": "all named types, all names that are identifiers and no words of the language, all arguments: nil, booleans, integers, floats, strings, and arrays and maps of these of any depth", "why_tests_cant": "Whether the text can be read depends on the argument's kind (blank or no blank after the name), on the characters in it and on how the parser goes on after a name; tests print and parse two types.", "anchors": ["internal/named.go:ValueString", "parser/parser.go:namedType", "parser/parser.go:identifier", "stringer/typestring.go:named", "util/indenter.go:String"]}
{"id": "C80", "title": "Values of named types survive the streaming", "statement": "Streaming data that contains values of named types to a collector with the same dialect, without de-duplication, gives the data back, for consumers that can and cannot do complex keys; a consumer that cannot do complex keys is only told maps with strings as keys.", "quantifier": "all dialects with distinct words, all named types registered under their names, all data of any depth: values of named types in arrays, maps, sensitive values and in one another", "why_tests_cant": "The representation of a value depends on the kind of its argument and on the keys of an argument map, which may clash with the words of the dialect; tests stream two named types with one value each.", "anchors": ["streamer/streamer.go:emitNamed", "streamer/streamer.go:emitMap", "streamer/decoder.go:AddMap", "streamer/dialect.go:ParseType"]}
{"id": "C81", "title": "A type that contains itself checks the whole value", "statement": "Instance returns for every type and value, also if they contain themselves, and is true exactly if no part of the value, at any depth, is other than the type says. So files=map[string](int|files) accepts exactly the trees with integers as leaves.", "quantifier": "all graphs of types, all graphs of values, cyclic or not; for acceptance all readings of the types", "why_tests_cant": "The recursion guard keeps types and values that were seen apart and changes the guard of the caller; whether it stops too early or never depends on the path through types and values. Tests try one self-referential tuple with one value that conforms.", "anchors": ["internal/compare.go:Instance", "internal/compare.go:Append", "internal/alias.go:Replace", "internal/ternary.go:DeepInstance", "internal/map.go:DeepInstance", "internal/mapstruct.go:DeepInstance", "internal/not.go:Instance", "internal/sensitive.go:Instance"]}
{"id": "C82", "title": "Equals and HashCode of types that contain themselves", "statement": "Equals and HashCode return for all types, also for types that contain themselves. Types that are the same when they are written out to any depth are equal, and types that are equal are the same; equal types have the same hash code. So the same definitions read twice give types that are equal and find each other as keys of a map.", "quantifier": "all graphs of types, cyclic or not, all pairs of types in them", "why_tests_cant": "Whether the recursion is cut off too early or never depends on the cycles in both types and on the side that the list of types seen is kept for; tests compare one recursive type with itself.", "anchors": ["internal/compare.go:equals", "internal/compare.go:deepHashCode", "internal/ternary.go:sameValues", "internal/array.go:deepContainsAll", "internal/not.go:HashCode", "internal/not.go:Equals", "internal/alias.go:update"]}
{"id": "C83", "title": "Assignable of types that contain themselves", "statement": "a.Assignable(b) returns for all types a and b, also for types that contain themselves. It is true if a and b are the same when written out to any depth, and if it is true, then every instance of b is an instance of a. So the built-in types data and richdata accept exactly types of which the instances are data.", "quantifier": "all graphs of types, cyclic or not, all pairs of types in them, all readings of the types as sets of values", "why_tests_cant": "The recursion guard stops when both types have been met before, not when one has been met against the other, is dropped by arrays, and is swapped for operands; whether the answer is wrong or never comes depends on cycles in both types. Tests try data with a few types that are data.", "anchors": ["internal/compare.go:Assignable", "internal/compare.go:Append", "internal/compare.go:Swap", "internal/type.go:CheckAssignableTo", "internal/ternary.go:DeepAssignable", "internal/ternary.go:AssignableTo", "internal/array.go:DeepAssignable", "internal/map.go:DeepAssignable", "internal/alias.go:init"]}
{"id": "C84", "title": "MarshalJSON returns JSON, byte for byte, and it is read back", "statement": "The bytes that MarshalJSON returns are a JSON text as RFC 8259 defines it, whatever the value and whatever bytes its strings hold, and UnmarshalJSON of those bytes gives the value back.", "quantifier": "all values (heaps, sharing, cycles), all strings of bytes, all options, both escapes of backspace and form feed", "why_tests_cant": "Which characters need an escape, and that escapes, commas, colons and numbers never run together, is a claim about all strings and all nestings; tests compare a few texts.", "anchors": ["streamer/json.go:MarshalJSON", "streamer/json.go:write", "streamer/json.go:delimit", "streamer/json.go:AddRef", "streamer/json.go:UnmarshalJSON"]}
{"id": "C85", "title": "UnmarshalJSON reads JSON and nothing else", "statement": "UnmarshalJSON gives the same value for all spellings of a JSON text (blanks, escapes), and panics for bytes that are not a JSON text.", "quantifier": "all byte strings, all spellings of all JSON values, both dialects", "why_tests_cant": "There are infinitely many texts that are almost JSON and infinitely many spellings of the same text; the decoder reads tokens one at a time and never asks whether the input has ended.", "anchors": ["streamer/json.go:UnmarshalJSON", "streamer/json.go:decodeElem", "streamer/json.go:decodeCollection", "streamer/json.go:decodeArray", "streamer/json.go:decodeMap", "streamer/json.go:nextToken"]}
{"id": "C86", "title": "UnmarshalJSON gives the data that a JSON text says", "statement": "For every JSON text UnmarshalJSON returns the data it says: arrays, maps with the members in their order, strings, booleans, nil, integers for numbers written as integers and floats for other numbers.", "quantifier": "all JSON texts, nested to any depth, all spellings, both dialects", "why_tests_cant": "The result depends on two names reserved by the dialect, on the range of integers and on the nesting; tests decode a few texts written by MarshalJSON.", "anchors": ["streamer/json.go:UnmarshalJSON", "streamer/json.go:decodeElem", "streamer/json.go:decodeCollection", "streamer/decoder.go:AddMap", "streamer/basiccollector.go:AddArray", "streamer/basiccollector.go:AddMap"]}
{"id": "C87", "title": "The Go type of a type has a place for the instances", "statement": "For every type t, t.ReflectType() is a Go type, every instance of t can be put in a variable of it with ReflectTo, reading the variable gives the value back, and the instance is an instance of TypeFromReflected(t.ReflectType()).", "quantifier": "all types without functions, aliases and named types, nested to any depth; all their instances", "why_tests_cant": "The common Go type of the parts depends on all of them and their order; tests compare the Go types of a few types and put no instances in variables of them.", "anchors": ["internal/ternary.go:commonReflectTo", "internal/array.go:tupleElementType", "internal/mapstruct.go:ReflectType", "internal/map.go:ReflectType", "internal/array.go:ReflectType", "internal/array.go:ReflectTo", "internal/map.go:ReflectTo"]}
{"id": "C88", "title": "Struct types made from a map of declarations", "statement": "StructMapTypeFromMap(additional, m) returns exactly if every key of m is a string and every value is a type, a text for a type, or a map with such a `type` and an optional boolean `required`; the instances of the result are the maps that have every required key, whose values are instances of the declared types, and that have no other keys unless additional is true. t, {type: t} and {type: t, required: true} declare the same.", "quantifier": "all maps of declarations, all parsers of texts, all values", "why_tests_cant": "The tests have a handful of maps; which values are accepted depends on the whole map of declarations and on whether all of them happen to be exact.", "anchors": ["internal/mapstruct.go:StructMapTypeFromMap", "internal/mapstruct.go:StructFromMapType", "internal/string.go:defaultDgoStringType"]}
{"id": "C89", "title": "Absolute names of loaders", "statement": "The AbsoluteName of the namespace reached from a root loader by the parts a, b, c is /a/b/c; no two namespaces below one root have the same absolute name; and what a namespace has under a name is what the root loads by the absolute name of the namespace followed by a slash and the name. A root loader that has a name of its own breaks this: its name begins the absolute names, but is not a part that it finds.", "quantifier": "all trees of loaders (simple, with namespaces, child loaders), all paths, all names", "why_tests_cant": "Tests check the absolute name of one or two loaders; that naming and loading are inverse of each other concerns all paths through all trees, including merged namespaces of child loaders.", "anchors": ["loader/loader.go:AbsoluteName", "loader/loader.go:Load", "loader/loader.go:Namespace"]}
{"id": "C90", "title": "Integers, floats and booleans made of each other", "statement": "Making an integer of a float with New cuts off the fraction; making a float of an integer gives the nearest float, the even one if two are as near; integers of at most 53 bits survive the way to a float and back. True makes the float 1, false 0; a float makes false exactly if it is zero. (Beyond 53 bits the way back is lossy: MaxInt64 comes back as MinInt64; and floats that no integer holds are not refused.)", "quantifier": "all 64-bit integers, all 64-bit floats, all integer and float types", "why_tests_cant": "The tests convert a few small numbers; that no float is nearer than the one chosen concerns all 2^64 floats for each of 2^64 integers.", "anchors": ["internal/integer.go:intFromConvertible", "internal/float.go:floatFromConvertible", "internal/boolean.go:newBoolean"]}
{"id": "C91", "title": "Float range types accept exactly the floats in the range", "statement": "The type made with finite bounds min and max, inclusive or exclusive, accepts a value exactly when it is a float f with min <= f <= max as numbers, or min <= f < max when exclusive, after swapping the bounds if they are given in reverse; equal bounds with an exclusive end are refused, and nothing else.", "quantifier": "all finite bounds, both inclusivity flags, all floats including infinities and NaN", "why_tests_cant": "2^192 combinations; the bounds -MaxFloat64 and MaxFloat64 are special-cased in the code, and zeros of both signs, infinities and NaN compare differently from all others.", "anchors": ["internal/float.go:FloatType", "internal/float.go:floatType.IsInstance"]}
{"id": "C92", "title": "What the errors of the lexer say is the case", "statement": "If a token cannot be read and the error is an unexpected end or an unterminated string or regexp, then the text is the beginning of one that can be read (or it has a NUL, or a line end in the literal); if the error is an unexpected character, an illegal escape or a unicode error, then that character is in the text, and whatever the text is continued with, the error stays.", "quantifier": "all texts, all continuations", "why_tests_cant": "Each error is tested with one text; that an error cannot be mended, or can, concerns all continuations.", "anchors": ["parser/lexer.go:nextToken", "parser/lexer.go:badToken", "parser/lexer.go:ConsumeNumber", "parser/lexer.go:ConsumeString"]}
{"id": "C93", "title": "The tokens of a text are those of a grammar", "statement": "The lexer reads a token from a text exactly if the text is blanks, the characters that the grammar of the token allows (identifiers, decimal, hexadecimal and float numbers with optional sign, quoted and raw strings with their escapes, regexps, dots, single characters), followed by something that does not prolong the token; the value of the token is what these characters stand for. No text can be divided into tokens in two ways.", "quantifier": "all texts, tokens and remaining texts", "why_tests_cant": "The tokens are infinitely many, and where a token ends depends on what follows it (1.. is two tokens, 1.5 is one, 1. is an error).", "anchors": ["parser/lexer.go:nextToken", "parser/lexer.go:ConsumeNumber", "parser/lexer.go:ConsumeString", "parser/lexer.go:ConsumeRegexp", "parser/lexer.go:buildToken"]}
{"id": "C94", "title": "The position in a parse error is where the offending token begins", "statement": "The line and column in the error of the parser are those of the first character of the token that was read last, counted from 1.", "quantifier": "all texts, all positions, all tokens", "why_tests_cant": "The column is computed from the column after the token and the length of its value, which differs from the length in the text for strings, escapes and signs, and line ends change the counting.", "anchors": ["parser/parser.go:DoParse", "parser/parser.go:Base.NextToken", "util/reader.go:StringReader.Column"]}
{"id": "C95", "title": "A consumer is told only what it can do, and without rich data only data", "statement": "A consumer that says it cannot do binaries, times or maps with other keys than strings is never told of one, at whatever depth and whatever the options; a collector of data and the JSON encoder are told of plain data only. Without RichData the streamer refuses every value from which something that is not data for the consumer can be reached, and refuses nothing else; without de-duplication there are no references.", "quantifier": "all object graphs (with sharing and cycles), all options, all consumers", "why_tests_cant": "The offending part can be anywhere, below a key, below something already seen, or in a cycle, and the options interact.", "anchors": ["streamer/streamer.go:context.emitData", "streamer/streamer.go:context.emitMap", "streamer/streamer.go:context.emitBinary", "streamer/streamer.go:context.emitTime", "streamer/datacollector.go:dataCollector.CanDoBinary"]}
{"id": "C96", "title": "The text of a function type is read back", "statement": "A function type that is printed and parsed again is the same function type: the same arguments, variadic or not, and the same types returned, none, one or several. Two function types with the same text are the same. No text is read as a function type with a varying number of values returned, except for (...any).", "quantifier": "all function types over types that are read back; all texts for the last clause", "why_tests_cant": "A single returned type is written without parentheses, and whether a parenthesis that follows belongs to it or to the list depends on the whole type.", "anchors": ["stringer/typestring.go:typeBuilder.function", "stringer/typestring.go:typeBuilder.writeTupleArgs", "parser/parser.go:parser.funcExpression", "internal/function.go:FunctionType"]}
{"id": "C97", "title": "A call on a map changes that map as it says, and no other collection", "statement": "However maps are made, copied, merged and stored in each other, every map has one entry per key and shares no entry with another map. Put, PutAll and Remove on a mutable map return and leave exactly the entries that they are to leave, in order. With, Without, Merge and Map return the receiver (or argument) only where there is nothing to change, and a new map with exactly the entries expected otherwise, with everything that existed unchanged. No call changes the content of an array, map or binary other than its receiver.", "quantifier": "all programs of calls on arrays, maps, entries, binaries and sensitive values, with cycles, recovering from panics", "why_tests_cant": "Maps share nothing only because every operation that moves entries makes new nodes; one omission shows only in a later call on another map.", "anchors": ["internal/map.go:hashMap.Put", "internal/map.go:hashMap.PutAll", "internal/map.go:hashMap.Remove", "internal/map.go:hashMap.With", "internal/map.go:hashMap.Without", "internal/map.go:hashMap.Merge", "internal/map.go:hashMap.Map", "internal/map.go:mapEntry.ThawedCopy"]}
{"id": "C98", "title": "The lexer of pcore reads exactly the tokens of a grammar", "statement": "The next token of a pcore expression is read, with what is left, exactly if the text is blanks and comments, then characters that a grammar says the token is written with, then what is left. The grammar gives names and identifiers with ::, both kinds of quotes, signs that are kept, regexps, => and numbers; what may follow each; and comments that end the text. There is one way only to divide a text into tokens.", "quantifier": "all texts, also those with invalid UTF-8, and all tokens", "why_tests_cant": "Tests lex expressions that are in use; what follows a token, nested name segments and comments combine without bound.", "anchors": ["streamer/pcore/lexer.go:nextToken", "streamer/pcore/lexer.go:buildToken", "streamer/pcore/lexer.go:consumeLineComment", "streamer/pcore/lexer.go:consumeIdentifier", "streamer/pcore/lexer.go:consumeTypeName"]}
{"id": "C99", "title": "Equal natives have the same hash code", "statement": "Two natives are equal when the Go values they hold are deeply equal. This is symmetric and transitive, and a native is equal to itself exactly if it holds no NaN and no function that isn't nil (other than behind a pointer). Equal natives, and fields of them that are converted, have the same hash code: HashCode returns the same for both, or panics for both, or returns for neither. HashCode returns for each native without cycles, without a uintptr and without natives in slices.", "quantifier": "all Go values made of basic types, structs with exported and unexported fields, arrays, slices, pointers, functions, channels and interface{}, and all contents of memory, also cyclic", "why_tests_cant": "Tests compare a few structs; deep equality is a relation over cyclic graphs in memory, and the hash code is computed by another recursion, through the conversion of fields to values.", "anchors": ["internal/native.go:native.Equals", "internal/native.go:native.HashCode", "internal/native.go:structHash", "internal/value.go:ValueFromReflected", "internal/array.go:ArrayFromReflected"]}
{"id": "C100", "title": "Native types follow Go's assignability", "statement": "A native type accepts exactly the natives whose Go value can be assigned to a variable of the Go type, and the type without a Go type accepts all. A native is an instance of its own type. If one native type is assignable to another, then the instances of the one are instances of the other. Equal native types have the same hash code.", "quantifier": "all Go types that are not channels, with and without names, and interfaces", "why_tests_cant": "Tests use one or two named types; the claim is about the interplay of names, underlying types and method sets.", "anchors": ["internal/native.go:nativeType.Assignable", "internal/native.go:nativeType.Instance", "internal/native.go:nativeType.Equals", "internal/native.go:nativeType.HashCode"]}
{"id": "C101", "title": "Errors as values", "statement": "An error that vf.Value makes of a Go error is equal to exactly the errors with the same message; equality of errors is symmetric, and equal errors have the same hash code. The type of such an error accepts exactly the errors with the same message, the error type accepts all, and assignability of error types respects that. FromValue gives the Go error back; errors.Is finds in the value the Go error that it was made of and what that wraps; and the value does not change.", "quantifier": "all Go errors and what they wrap, all errors of dgo and all types in them, all texts", "why_tests_cant": "Tests compare an error with itself and with a Go error; the claim relates the four kinds of errors with one another, and chains of wrapped errors of any length.", "anchors": ["internal/error.go:errw.Equals", "internal/error.go:errw.HashCode", "internal/error.go:errw.Unwrap", "internal/error.go:errw.ReflectTo", "internal/typeerror.go:typeError.Equals", "internal/typeerror.go:sizeError.Equals", "internal/typeerror.go:mapKeyError.Equals"]}
{"id": "C102", "title": "Names of types and types of names", "statement": "After a call of AddAliases that adds types with names, GetType answers for each added name with the type added last with it, its aliases replaced, and for the other names what it answered before; GetName answers for each added type with a name that was added for an equal type. In an alias map every type that GetType finds has a name and every name that GetName finds has a type, and the name that GetName finds for a type is the name of an equal type.", "quantifier": "all sequences of calls that add any names and types, including ones that panic", "why_tests_cant": "Tests add one or two names; the claim is about all histories of two maps that must stay each other's inverse.", "anchors": ["internal/alias.go:aliasMap.update", "internal/alias.go:aliasMap.Collect", "internal/alias.go:aliasMap.GetName", "internal/alias.go:aliasMap.GetType", "internal/alias.go:aliasAdder.GetType", "internal/alias.go:AddAliases"]}
{"id": "C103", "title": "Equality of functions and function types", "statement": "Two function types are equal exactly if they have the same parameters, variadic or not, and the same results, wherever they come from (parsed, built, or the type of a Go function); this is an equivalence and equal function types have the same hash code. Equality of function values is an equivalence, equal functions have the same hash code, and equal functions give the same results.", "quantifier": "all function types with function types nested to any depth, all pairs and triples of them, all functions and closures", "why_tests_cant": "Tests compare a function type with itself and with one other; the laws relate all pairs and triples of both representations at any depth.", "anchors": ["internal/function.go:exactFunctionType.Equals", "internal/function.go:functionType.deepEqual", "internal/function.go:exactFunctionType.HashCode", "internal/function.go:functionType.deepHashCode", "internal/array.go:tupleEquals", "internal/array.go:tupleHashCode", "internal/function.go:goFunc.Equals", "internal/function.go:goFunc.HashCode"]}
{"id": "C104", "title": "Type constructors with any number of arguments", "statement": "tf.String, tf.Binary, tf.Array and tf.Map make, of each list of arguments that the documentation describes (types of the parts, then a minimum and a maximum), the type that accepts exactly what the arguments describe, and panic for all other lists; the argument an error names can not stand there, and the number of arguments is blamed only if no list of that length is accepted. tf.Enum, tf.IntEnum, tf.CiString and tf.CiEnum accept exactly the given strings or integers, the latter two but for case.", "quantifier": "all lists of arguments, all values", "why_tests_cant": "The calls dispatch on the kinds of up to four arguments; tests try a few combinations and a few values.", "anchors": ["internal/string.go:StringType", "internal/binary.go:BinaryType", "internal/array.go:ArrayType", "internal/map.go:MapType", "internal/integer.go:IntEnumType", "internal/string.go:EnumType", "internal/string.go:CiEnumType", "internal/string.go:CiStringType"]}
{"id": "C105", "title": "Loaders as values, and the maps they share", "statement": "Equality of loaders is an equivalence: loaders of one kind are equal exactly when their entries are, the names of their namespaces are the same and the loaders below them are equal (own loader and parent, for a child). Equal loaders have equal hash codes, and answer Get, Namespace and Load alike. The map that ExtractInitArg answers makes an equal loader with the same name, and a map without one of the keys is refused. What a loader made by loader.New without a finder answers never changes, whatever is done to any map.", "quantifier": "all trees of loaders, keys and paths; all sequences of operations on loaders and on the maps that a program can get hold of", "why_tests_cant": "Symmetry, transitivity and agreement of hash codes are about all pairs and triples of trees; that nothing changes a loader is about all sequences of operations.", "anchors": ["loader/loader.go:Equals", "loader/loader.go:HashCode", "loader/loader.go:initMap", "loader/loader.go:init", "loader/loader.go:New", "loader/loader.go:Get"]}
{"id": "C106", "title": "Types of types, and strings that are texts of the language", "statement": "Every type is an instance of its own type, and the type of the type of a type is the same for all types. New of a type of types returns exactly the type that its argument describes (as a type, as a text that is read as the type or as a value of the type, alone or as the only one of the arguments) if it is an instance, and panics otherwise; so the text of a type makes that type again. A string is an instance of the type dgo exactly if the parser reads it; texts of types are such strings.", "quantifier": "all types, all types of types, all texts and arguments", "why_tests_cant": "Texts and types nest without bound; tests try a handful of texts.", "anchors": ["internal/meta.go:New", "internal/meta.go:Instance", "internal/meta.go:Type", "internal/string.go:Instance"]}
{"id": "C107", "title": "A type accepts every type all of whose values it accepts", "statement": "If every value that is an instance of a type u is also an instance of a type t, then t.Assignable(u) answers true: assignability is not only right (C26) but complete, so a refusal always has a reason in the form of a value of u that t does not accept.", "quantifier": "For all types t built from any, the default scalar types, exact scalar types, ranges, sized strings and binaries, arrays with an element type, tuples, maps and sensitive types, all types u built from the same and from unions at any depth, and all states of sharing between the two.", "why_tests_cant": "A test compares one pair of types; that no included pair is refused is a statement about all pairs of types and all values.", "anchors": ["internal/compare.go:51-73", "internal/type.go:15-23", "internal/ternary.go:284-293", "internal/array.go:190-198", "internal/array.go:403-476", "internal/map.go:1027-1033", "internal/float.go:177-183", "internal/map.go:1146-1152"]}
{"id": "C108", "title": "A map can be changed while it is iterated", "statement": "A loop over a map (Each, EachEntry, EachKey, EachValue, All, Any, Find, ...) whose callback changes that map or others never panics and never loses the entries that the map had at the start: without removals it visits all keys of the start in their order before any new one and it ends whatever is added; if only the current entry is removed it visits exactly the entries of the start; if others are removed and values are replaced it visits only entries that are in the map, with their current values, and all that are left at the end. Afterwards the maps are what the calls of the callback make of insertion-ordered dictionaries.", "quantifier": "For all maps reached by any program, all key types whose hash respects Equals, and all callbacks that make any number of calls on any maps, each call chosen with the results of the earlier ones.", "why_tests_cant": "What a loop sees depends on the links between entries, on the capacity and on when the map grows; a test fixes one interleaving, and that a loop ends for every callback is a statement about infinitely many runs.", "anchors": ["internal/map.go:341-393", "internal/map.go:439-461", "internal/map.go:478-485", "internal/map.go:599-672", "internal/map.go:706-775", "internal/map.go:861-895"]}
{"id": "C109", "title": "An array can be changed while it is iterated", "statement": "A loop over an array (Each, EachWithIndex, All, Any, Find, Map, Reduce, Select, ...) whose callback changes that array or others never panics and always ends: the callback is called once for every index that the array had at the start, in order. As long as elements are only replaced it is given what Get returns for the index at that time; if elements are only added it is given the elements of the start; changes of other arrays are not noticed; and a frozen array is seen as it is whatever the callback tries.", "quantifier": "For all heaps reached by any program, all growth policies of append, all callbacks that make any number of calls on any arrays, each call chosen with the results of the earlier ones; the last two for programs that do not let arrays share storage.", "why_tests_cant": "What a loop sees depends on the capacity of the slice, on the growth policy of the runtime and on which slices share storage; a test fixes one of them and one callback.", "anchors": ["internal/array.go:857-875", "internal/array.go:999-1011", "internal/array.go:1024-1032", "internal/array.go:1140-1170", "internal/array.go:1235-1261", "internal/array.go:830-855", "internal/array.go:1118-1123", "internal/array.go:1201-1226"]}
{"id": "C110", "title": "Resolving puts the named types in the places of the aliases, everywhere, once", "statement": "When a text is read, or types are added to an alias map, each alias in the types is replaced, in place, by the type that has its name, however deep it is and even when the types contain themselves. The call ends; when it returns then every type reached holds exactly the named types where it held aliases and is otherwise the same, so no alias is left; it does not return when a name is unknown and does not fail when all names are known. Types that were published before hold what they held when the call has ended, and types that are not reached are never written, not even for a moment.", "quantifier": "For all heaps of type and value objects (shared and cyclic), all maps of names, all types given to Replace, and every moment of the run (each assignment gives one); the end is shown when what is reached is finite.", "why_tests_cant": "The code breaks recursion by emptying a type while its parts are resolved; whether each part of a cyclic graph is visited and put back depends on where the walk enters the cycle, and what another goroutine sees of it on the moment.", "anchors": ["internal/alias.go:160-222", "internal/array.go:257-261", "internal/array.go:331-333", "internal/array.go:639-644", "internal/array.go:1228-1233", "internal/array.go:1475-1479", "internal/map.go:778-782", "internal/map.go:1112-1121", "internal/map.go:1269-1273", "internal/mapstruct.go:327-339", "internal/ternary.go:128-133", "internal/ternary.go:340-345", "internal/ternary.go:463-468", "internal/not.go:90-94", "internal/meta.go:113-117", "parser/parser.go:160-180", "parser/parser.go:716-728"]}
{"id": "C111", "title": "Ranges in texts are read as the ranges they say", "statement": "The texts a..b, a...b, a.., a..., ..b and ...b, with numbers that are integers or have a decimal point, are read as a type that accepts exactly the integers (or, if one of the numbers is a float, exactly the floats) from the lesser to the greater number, the greater one only if there are two dots; a missing number stands for the smallest or greatest one. An exclusive range from a number to itself and dots without a number are refused. What follows such a text is not affected by it.", "quantifier": "For all 64-bit integers, all texts of floats (for every result of strconv.ParseFloat that is a number), both kinds of dots, either number missing, and all values that are tested.", "why_tests_cant": "The answer has to be right for all pairs of numbers, including swapped and extreme ones, and for all values; and an open range has to work in front of every token.", "anchors": ["parser/parser.go:646-706", "internal/integer.go:37-60", "internal/float.go:39-55", "parser/lexer.go:244-292", "internal/integer.go:112-124", "internal/float.go:94-105"]}
{"id": "C112", "title": "The type of an array, as an element and as a key", "statement": "The type that Type() returns for an array accepts, at every moment, exactly the values with the contents that the array has at that moment. What is frozen does not change, also if types of arrays are part of it: what a frozen array with types in it contains, its hash code, what the type of a frozen array accepts, and what a map with such keys finds, are the same whatever a program does with other arrays. FrozenCopy().Type() is a type that never changes. Freeze leaves all contents as they are and reaches all arrays inside; ThawedCopy gives arrays that are all new.", "quantifier": "For all heaps of arrays whose elements are values, arrays and types of arrays, all programs of Values, MutableValues, Tuple, Add, Set, Remove, Freeze and Copy, and all maps with such keys.", "why_tests_cant": "The type holds the array and not a copy, so that every later call anywhere in the program can change what it says; tests create types of values that are not changed afterwards.", "anchors": ["internal/array.go:1378-1382", "internal/exact.go:40-75", "internal/array.go:373-397", "internal/array.go:935-954", "internal/array.go:1058-1077", "internal/map.go:508-544", "internal/map.go:900-905"]}
{"id": "C113", "title": "Names of types in pcore expressions", "statement": "A name in a pcore expression, A::B, is the name a.b of dgo, and different names stay different names. type X = \u2026 is refused exactly if the text declares X twice (also inside of its own declaration), if X is built in, or if a named type or a type of the alias map has its name in dgo. Where X is used it is a declared type exactly if the text, or a text before it, declares X. The name that dgo has for a declared type, and that it prints, is read back by dgo as that name.", "quantifier": "For all names, all texts with declarations nested in any way, all alias maps and all named types.", "why_tests_cant": "Tests declare one or two names; that no two names collide, and that nothing else is refused or found, is about all names and all nestings.", "anchors": ["streamer/pcore/parser.go:186-202", "streamer/pcore/parser.go:634-719", "streamer/pcore/parser.go:812-819", "streamer/pcore/lexer.go:95-112"]}
{"id": "C114", "title": "Callable in pcore expressions", "statement": "Callable[T1, \u2026, Tn] is the type of the functions with the parameters T1, \u2026, Tn, and Callable[[T1, \u2026, Tn], R] of those that also return an R; a function type as the last of several parameters, the block, becomes the first parameter. With sizes lo, hi after the types the functions take from lo to hi arguments, not counting the block. Nothing between the brackets is dropped: all types become parameters, and what is neither a type nor a size is refused. A Callable without parameters can be written as Callable[0, 0] or as an empty list.", "quantifier": "For all lists of arguments, of any length, with any sizes.", "why_tests_cant": "The code takes the sizes off the end, adds one for the block and moves the block, with positions counted from the end of a list that has changed in between; tests see some lengths only.", "anchors": ["streamer/pcore/parser.go:304-348", "streamer/pcore/parser.go:497-537", "streamer/pcore/parser.go:745-755", "streamer/pcore/parser.go:802-810"]}
{"id": "C115", "title": "Arguments are arrays", "statement": "dgo.Arguments is documented as a special form of an Array: wherever an array can be used, arguments with the same values can be used with the same effect. They are equal to the array and to themselves, have its hash code and its order, are instances of the types it is an instance of and of their own type, can be given to AddAll, WithAll and ContainsAll, are flattened, and make entries. AssertSize and Arg return exactly if the number and the type of the arguments are as demanded. Frozen arguments never change. What is taken from another iterable is what its Each gives.", "quantifier": "For all values, with arrays and arguments nested in any way, all types of arrays, and all programs of calls on arrays and arguments made from them.", "why_tests_cant": "Arguments embed an array, so that every method works when it is asked of them; what differs is asking others about them, in nine places that test for the one implementation of arrays. The tests of arguments have one example of AssertSize and Arg.", "anchors": ["internal/arguments.go:7-35", "internal/array.go:237-243", "internal/array.go:564-600", "internal/array.go:695-716", "internal/array.go:837-848", "internal/array.go:900-932", "internal/array.go:960-1000", "internal/array.go:1017-1056", "internal/array.go:1341-1380", "internal/compare.go:98-175"]}
{"id": "C116", "title": "Asking whether a text is a dgo expression has no effect", "statement": "Whether a text is an instance of the type dgo (typ.DgoString), the type of the texts that can be parsed, depends on the text and the aliases that have been added only: asking changes nothing, so that the same question has the same answer when it is asked again, and every other question has the answer that it would have had.", "quantifier": "For all texts, with all declarations and names in them, all default aliases, and all sequences of questions.", "why_tests_cant": "Instance parses the text, and parsing adds the types that it declares to the default aliases of the process; a test asks once for each text, in one order.", "anchors": ["internal/string.go:97-125", "parser/parser.go:132-137", "parser/parser.go:147-176", "parser/parser.go:730-745", "internal/alias.go:41-59"]}
{"id": "C117", "title": "Entries are alike whatever they are from", "statement": "The entries that maps hand out, those that structs hand out, those made with vf.MapEntry and those of struct types are values with a key and a value. Two of them are equal if and only if their keys and their values are equal, whichever of them is asked, and then they have the same hash code and the same type, of which both are instances. A frozen copy equals what it is a copy of, is found where that was put, and nothing in it can be changed. The entries in an array can be made a map with Array.ToMapFromEntries.", "quantifier": "for all entries of every kind with any keys and values, alone, as elements, keys and values of other values", "why_tests_cant": "three implementations with embedded methods meet in every position of arbitrarily nested values; tests compare a few entries of one kind", "anchors": ["internal/map.go:36-52", "internal/map.go:75-187", "internal/mapstruct.go:455-482", "internal/array.go:789-805", "internal/array.go:935-954", "internal/array.go:1341-1380", "internal/exact.go:44-75", "internal/compare.go:98-145"]}
{"id": "C118", "title": "The seconds of a time are those of the time", "statement": "Time.SecondsWithFraction is the number of seconds since 1970 of the time, with nanosecond precision in the years 1679 to 2261 and microsecond precision in all other years. Equal times have equal seconds and later times have no fewer. A time that is converted to a float with vf.New and back is the same time to that precision, and a time converted to an integer gives the same whether or not it is first converted to a float.", "quantifier": "for all times in all zones, and all roundings to a nearest float64", "why_tests_cant": "the year decides between two computations in 64 bits, each followed by two roundings: the errors, the order across the years' boundaries and the overflow need arguments for all instants and zones", "anchors": ["internal/time.go:95-118", "internal/time.go:136-159", "internal/float.go:349-356", "internal/integer.go:433-440", "dgo/primitive.go:108-111"]}
{"id": "C119", "title": "The text of a time is read back as the time", "statement": "vf.TimeFromString, vf.New(typ.Time, s) and the decoder of streams read the String of a time as an equal time, in a zone with the same offset; two times with the same text are the same.", "quantifier": "for all times in all zones", "why_tests_cant": "the text is made of the calendar date in the zone of the time, trimmed fractions and a zone in minutes; tests read a few dates of this century", "anchors": ["internal/time.go:125-134", "internal/time.go:178-180", "internal/time.go:110-111", "streamer/decoder.go:66-71"]}
{"id": "C120", "title": "The text of a float is read back as the float", "statement": "The String of a float, which is also what the string form of its type shows, always has a decimal point or an exponent, so that it is never read as an integer, and parsing it yields the float; the string form of a range of floats is read back as the range.", "quantifier": "for all floats", "why_tests_cant": "the text depends on how many digits the float needs and where its decimal point is; the tests read a few short decimals and no bound that is printed with an exponent", "anchors": ["util/string.go:9-18", "internal/float.go:307-309", "stringer/typestring.go:351-368", "internal/lexer.go:217-292"]}
{"id": "C121", "title": "A Go value as an argument means the dgo value it becomes", "statement": "Equals, CompareTo and Instance take any Go value, and answer for it as they answer for the value that vf.Value makes of it; in particular they do not panic where vf.Value does not.", "quantifier": "for all values, types and Go values", "why_tests_cant": "every method has its own type switch over Go types; the tests call each with a few of the Go types, and not with those that are forgotten", "anchors": ["internal/value.go:35-84", "internal/compare.go:75-132", "internal/integer.go:112-127", "internal/integer.go:214-220", "internal/integer.go:263-296", "internal/integer.go:376-412", "internal/boolean.go:109-137", "internal/string.go:546-585", "internal/binary.go:288-338", "internal/time.go:136-146", "internal/array.go:149-152", "internal/array.go:896-898", "internal/map.go:1071-1089"]}
{"id": "C122", "title": "Asking a string for its hash code is safe in all goroutines", "statement": "A string is immutable, so goroutines share it without locks. HashCode, which keeps the hash code in the string, returns the hash code of the text in every goroutine, whatever the others do at the same time.", "quantifier": "for all strings, numbers of goroutines and calls, and all executions", "why_tests_cant": "the tests call HashCode from one goroutine; which value a racing read finds depends on the schedule, the compiler and the processor", "anchors": ["internal/string.go:44-49", "internal/string.go:591-596", "util/string.go:31-37"]}
{"id": "C123", "title": "The type of a value stands for the value", "statement": "The README says of the type of a value that it considers that value, and only that value, to be an instance, and that it is assignable to another type if the value is an instance of that type: v.Type().Instance(w) is v.Equals(w), and t.Assignable(v.Type()) is t.Instance(v).", "quantifier": "for all values v, w and all types t", "why_tests_cant": "two unbounded quantifiers; the tests and the README name single pairs such as \"hello\" and string[5]", "anchors": ["README.md:72-78", "internal/exact.go:58-67", "internal/array.go:190-198", "internal/array.go:464-476", "internal/ternary.go:169-178", "internal/float.go:177-183", "internal/sensitive.go:165-167"]}
{"id": "C124", "title": "The expressions of the documentation mean what it says", "statement": "Each type expression in the tables of docs/types.md and in the README is read by tf.ParseType, and the instances of the type that it returns are exactly the values that the table says: string[10,12] the strings with a length from 10 to 12, 3...28 the integers from 3 to 27, [1,10]string[1] the arrays of 1 to 10 non empty strings, map[string](string|nil) the maps with string keys and strings or nil as values, {name:string,co?:string,address:string,zip:/\\d{5,5}/,city:string} the maps with these keys of which only co may be missing, and so on for all rows.", "quantifier": "all values, all regular expression and letter case semantics, all identities of the type objects", "why_tests_cant": "Each row is a claim about every value; a test can only try some values for some rows.", "anchors": ["docs/types.md:1-90", "parser/parser.go", "internal/array.go", "internal/map.go", "internal/mapstruct.go", "internal/ternary.go"]}
{"id": "C125", "title": "Layout of a type expression does not matter", "statement": "Blanks, tabs and line ends between the tokens of a type expression, and which of the ways to write a token is chosen (quotes or backquotes around a string, a plus sign before a number), have no effect on what tf.ParseType makes of it: an expression can be written on any number of lines.", "quantifier": "all texts, all layouts of them", "why_tests_cant": "Any layout of any text.", "anchors": ["parser/lexer.go:nextToken", "parser/lexer.go:ConsumeNumber", "parser/parser.go:Parse"]}
{"id": "C126", "title": "Types printed with the names of an alias map are read back", "statement": "The text that TypeStringWithAliasMap writes for a type, with names in place of those of its parts that the alias map knows, is read back by the parser with that alias map as the same type; it means the same as the text without names, and different types have different texts. A name alone, or in angle brackets, is read as the type that has it.", "quantifier": "all types that are read back without names, with any types as parts that have names, all alias maps in which names and types agree", "why_tests_cant": "Names may stand at any place of any type.", "anchors": ["stringer/typestring.go:TypeStringWithAliasMap", "stringer/typestring.go:buildTypeString", "parser/parser.go:aliasReference", "parser/parser.go:namedType", "parser/parser.go:identifier"]}
{"id": "C127", "title": "The type of a kind is assignable from every type that restricts it", "statement": "As the README says, int is assignable from every integer range, string from every pattern, every enumeration of strings and any other type that restricts a string, and a length constrained string type from one with narrower limits: the type of a kind of values (nil, bool, int, float, string, binary, regexp, time, array, map) is assignable from the types of that kind and the combinations of them at any depth, and from nothing else.", "quantifier": "all kinds, all types", "why_tests_cant": "Combinations of types may be nested to any depth, and that nothing else is accepted is a statement about all types.", "anchors": ["README.md:Type Assignability", "internal/type.go:15-23", "internal/ternary.go:65-74", "internal/string.go:198-204", "internal/integer.go:197-203", "internal/float.go:177-183", "internal/map.go:1146-1152", "internal/array.go:129-135"]}
