{"id": "C01", "title": "Field selectors are ordered by a strict order", "statement": "a < b on FieldSelectors is irreflexive, asymmetric and transitive; when neither comparison raises, exactly one of a < b, a == b, b < a holds; a proper prefix sorts before its extensions; integer indices under a common prefix sort numerically; TypeError is raised exactly when the first differing components have different types, and symmetrically.", "quantifier": "all triples of selectors of any length over str/int/None components", "why_tests_cant": "order laws range over all triples of unbounded sequences", "anchors": ["normalize/selector.py: FieldSelector.__lt__", "normalize/selector.py: FieldSelector.__eq__"]}
{"id": "C02", "title": "FieldSelector.path round-trips through from_path", "statement": "FieldSelector.from_path(fs.path) == fs for every field selector.", "quantifier": "all selectors (any length, any key text, any index)", "why_tests_cant": "key text is arbitrary; escaping bugs hide in unusual characters", "anchors": ["normalize/selector.py: FieldSelector.path", "normalize/selector.py: _fmt_selector_path", "normalize/selector.py: _scan_selector_path", "normalize/selector.py: _PATH_TOK"]}
{"id": "C03", "title": "Getting through a concatenated selector is getting in two steps", "statement": "(a + b).get(x) is the same as b.get(a.get(x)), including which exception is raised, whenever a has no wildcard; FieldSelector([]).get(x) is x.", "quantifier": "all selectors a, b and all objects x", "why_tests_cant": "paths and object graphs are unbounded", "anchors": ["normalize/selector.py: FieldSelector.get", "normalize/selector.py: FieldSelector.__add__"]}
{"id": "C04", "title": "What was put is what is got", "statement": "If fs.put(x, v) succeeds on a wildcard-free fs then fs.get(x) afterwards returns the value the target slot's type-safe conversion makes of v (v itself for untyped slots, dicts and lists).", "quantifier": "all selectors, objects, values", "why_tests_cant": "needs all shapes of object graph and path", "anchors": ["normalize/selector.py: FieldSelector.put", "normalize/selector.py: FieldSelector.get", "normalize/property/__init__.py: SafeProperty.__set__"]}
{"id": "C05", "title": "Put changes nothing but its target", "statement": "After fs.put(x, v), any wildcard-free selector that diverges from fs at some component (different attribute, key or list position) reads exactly what it read before, including its exception.", "quantifier": "all pairs of diverging selectors, all objects and values", "why_tests_cant": "a frame condition over every other path", "anchors": ["normalize/selector.py: FieldSelector.put"]}
{"id": "C06", "title": "Wildcard get: one entry per item, errors masked unless all fail", "statement": "get through a None component returns one entry per item in order, with None where the sub-get raised FieldSelectorException; it raises the first item's exception iff the collection is non-empty and every item fails; it is [] for an empty collection.", "quantifier": "all collections (any length) and sub-selectors", "why_tests_cant": "any-length collections with any pattern of failures", "anchors": ["normalize/selector.py: FieldSelector.get"]}
{"id": "C07", "title": "get_or_none never raises for a missing path", "statement": "get_or_none(x) returns get(x) when that succeeds and None whenever the path cannot be followed.", "quantifier": "all selectors and objects", "why_tests_cant": "every possible failure kind along a path", "anchors": ["normalize/selector.py: FieldSelector.get_or_none", "normalize/selector.py: FieldSelector.get"]}
{"id": "C08", "title": "A failing put changes nothing", "statement": "If fs.put(x, v) raises and fs has no wildcard before its last component, x is unchanged.", "quantifier": "all selectors, objects, values", "why_tests_cant": "crash-point property over every failing path", "anchors": ["normalize/selector.py: FieldSelector.put"]}
{"id": "C09", "title": "post agrees with put on existing paths and auto-vivifies missing ones", "statement": "If every proper prefix of a wildcard-free fs can be followed in x, fs.post(x, v) has exactly the effect of fs.put(x, v) and returns 1; appending beyond the end of a list (index != len) raises ValueError and leaves the list unchanged; when a post that creates missing records along the way succeeds, fs.get afterwards finds the value.", "quantifier": "all selectors, objects and values", "why_tests_cant": "paths of any length with any missing suffix", "anchors": ["normalize/selector.py: FieldSelector.post"]}
{"id": "C10", "title": "delete removes exactly its target", "statement": "After a successful wildcard-free fs.delete(x) on a record attribute or dict key, fs.get(x) raises; every selector diverging from fs reads as before (for attributes and dict keys); deleting an unset attribute is a silent no-op; a failing delete changes nothing.", "quantifier": "all selectors and objects", "why_tests_cant": "frame and absence conditions over all paths", "anchors": ["normalize/selector.py: FieldSelector.delete"]}
{"id": "C11", "title": "Only strings, ints and None can be selector components", "statement": "FieldSelector(expr) succeeds iff every component is a string, an int or None, and then holds exactly those components.", "quantifier": "all component lists", "why_tests_cant": "any python object may be passed", "anchors": ["normalize/selector.py: FieldSelector.__init__"]}
{"id": "C12", "title": "Selector concatenation, slicing and startswith form the free monoid", "statement": "+ is associative with FieldSelector([]) as unit, len is additive, (a+b)[:len(a)] == a, (a+b)[len(a):] == b, (a+b).startswith(a), and fs.startswith(p) for len(p) <= len(fs) holds iff fs == p + rest for some rest; a longer p raises IndexError only if fs is a prefix of p.", "quantifier": "all selectors", "why_tests_cant": "algebraic laws over unbounded sequences", "anchors": ["normalize/selector.py: FieldSelector.__add__", "normalize/selector.py: FieldSelector.__getitem__", "normalize/selector.py: FieldSelector.startswith"]}
{"id": "C13", "title": "A MultiFieldSelector contains exactly what its selectors cover", "statement": "For an MFS built from selectors (or nested MFSs), `p in mfs` holds iff some given selector, after dropping one trailing wildcard, matches a prefix of p with None matching any component.", "quantifier": "all lists of selectors for which construction succeeds, all paths p", "why_tests_cant": "unbounded sets of unbounded paths", "anchors": ["normalize/selector.py: MultiFieldSelector.__init__", "normalize/selector.py: MultiFieldSelector.__contains__"]}
{"id": "C14", "title": "Indexing a MultiFieldSelector is the path residual", "statement": "mfs[p] is None iff no extension of p is covered; otherwise q in mfs[p] iff p+q in mfs; `p in mfs` iff mfs[p] is complete; mfs[p+q] == mfs[p][q].", "quantifier": "all MFSs and paths", "why_tests_cant": "recursion over unbounded tries", "anchors": ["normalize/selector.py: MultiFieldSelector.__getitem__", "normalize/selector.py: MultiFieldSelector.__contains__"]}
{"id": "C15", "title": "Iterating a MultiFieldSelector (and its repr) reconstructs it", "statement": "Building a MultiFieldSelector from the FieldSelectors yielded by iterating mfs never raises and contains exactly the same paths as mfs; every yielded selector is contained in mfs.", "quantifier": "all MFSs", "why_tests_cant": "unbounded tries", "anchors": ["normalize/selector.py: MultiFieldSelector.__iter__", "normalize/selector.py: MultiFieldSelector.__repr__"]}
{"id": "C16", "title": "MultiFieldSelector construction is a set union", "statement": "The covered paths do not depend on the order or repetition of the arguments; MultiFieldSelector(m1, m2) covers exactly the union of m1 and m2; construction raises ValueError iff at some level a wildcard meets a named/indexed head.", "quantifier": "all argument lists", "why_tests_cant": "set semantics with unspecified iteration order", "anchors": ["normalize/selector.py: MultiFieldSelector.__init__"]}
{"id": "C17", "title": "MultiFieldSelector.path round-trips through from_path", "statement": "MultiFieldSelector.from_path(mfs.path) covers exactly the paths mfs covers.", "quantifier": "all MFSs with representable keys", "why_tests_cant": "nested parentheses of any depth and arbitrary key text", "anchors": ["normalize/selector.py: MultiFieldSelector.path", "normalize/selector.py: _scan_mfs_path", "normalize/selector.py: _MFS_PATH_TOK"]}
{"id": "C18", "title": "MultiFieldSelector.get is a faithful projection", "statement": "fs.get(mfs.get(x)) == fs.get(x) for each fs contained in mfs that can be followed in x, and nothing outside mfs is present in mfs.get(x).", "quantifier": "all MFSs, paths and objects", "why_tests_cant": "all object graphs and all filters", "anchors": ["normalize/selector.py: MultiFieldSelector.get"]}
{"id": "C19", "title": "MultiFieldSelector.delete without force is all-or-nothing", "statement": "If any selected field is missing, delete(x) raises and leaves x unchanged; otherwise afterwards none of the selected attributes exists and everything else is unchanged.", "quantifier": "all MFSs and objects", "why_tests_cant": "a crash-point property over sets of paths", "anchors": ["normalize/selector.py: MultiFieldSelector.delete"]}
{"id": "C20", "title": "MultiFieldSelector.patch copies exactly the selected fields", "statement": "After mfs.patch(target, source): each selected field reads in target as in source (or is absent if it is absent in source), and every other field of target is unchanged.", "quantifier": "all MFSs, sources and targets", "why_tests_cant": "sets of paths, all objects", "anchors": ["normalize/selector.py: MultiFieldSelector.patch"]}
{"id": "C21", "title": "Safe properties only ever hold type-safe values", "statement": "In every state reachable by construction, assignment, deletion and reads, each set slot of a safe property satisfies its isa constraint (when given) and its check function (when given).", "quantifier": "all property declarations and all operation histories", "why_tests_cant": "invariant over unbounded histories with user-supplied coerce/check", "anchors": ["normalize/property/__init__.py: Property.type_safe_value", "normalize/property/__init__.py: Property.init_prop", "normalize/property/__init__.py: SafeProperty.__set__", "normalize/property/__init__.py: LazyProperty.__get__"]}
{"id": "C22", "title": "Required properties stay set", "statement": "Once a record is constructed, each required non-lazy safe property is set after any history of operations, and if it has no isa its value is never None.", "quantifier": "all histories", "why_tests_cant": "invariant over unbounded histories", "anchors": ["normalize/property/__init__.py: Property.init_prop", "normalize/property/__init__.py: SafeProperty.__delete__", "normalize/record/__init__.py: Record.__init__"]}
{"id": "C23", "title": "Read-only properties never change after construction", "statement": "A read-only property's slot, once set, keeps its value over every later history; each set or delete raises ReadOnlyAttributeError.", "quantifier": "all histories", "why_tests_cant": "invariant over unbounded histories", "anchors": ["normalize/property/__init__.py: ROProperty", "normalize/property/__init__.py: ROLazyProperty"]}
{"id": "C24", "title": "Lazy defaults are evaluated at most once between deletions", "statement": "Reading a lazy property calls its default only if the slot is empty; afterwards all reads give the same value and do not call it again until the slot is assigned or deleted; the constructor itself never runs lazy defaults.", "quantifier": "all histories, any default function", "why_tests_cant": "counts evaluations across unbounded histories", "anchors": ["normalize/property/__init__.py: LazyProperty", "normalize/property/__init__.py: LazySafeProperty"]}
{"id": "C25", "title": "A rejected assignment or deletion leaves the record unchanged", "statement": "If setting or deleting an attribute raises (coercion, check, required, read-only) no slot of the record has changed.", "quantifier": "all properties, states, values", "why_tests_cant": "crash-point property for every failing operation", "anchors": ["normalize/property/__init__.py: SafeProperty.__set__", "normalize/property/__init__.py: SafeProperty.__delete__", "normalize/property/__init__.py: ROProperty"]}
{"id": "C26", "title": "Construction accepts exactly the declared properties and fills defaults", "statement": "Record(**kw) raises if kw names an undeclared property; if it succeeds each passed property holds its type-safe value (or is unset if an optional coerce returned None), each missing eager property holds its type-safe default, each other property is unset; a missing required property without default raises PropertyRequired; the order of keywords does not matter for the resulting slots.", "quantifier": "all classes whose eager defaults are values or functions without self, and all keyword sets", "why_tests_cant": "arbitrary declarations and arguments", "anchors": ["normalize/record/__init__.py: Record.__init__", "normalize/record/meta.py: RecordMeta.__new__", "normalize/property/__init__.py: Property.init_prop"]}
{"id": "C27", "title": "Record equality is an equivalence that ignores extraneous properties", "statement": "== on records is reflexive, symmetric and transitive (given element equality is), false for different classes, and depends exactly on the non-extraneous properties; != is its negation.", "quantifier": "all records", "why_tests_cant": "relation laws over all pairs/triples of nested records", "anchors": ["normalize/record/__init__.py: Record.__eq__"]}
{"id": "C28", "title": "Equal records have equal hashes", "statement": "If a == b then record_id(a) == record_id(b), hence hash(a) == hash(b), provided both hash and the primary key has no extraneous property.", "quantifier": "all records of any nesting", "why_tests_cant": "a relation between two recursive functions over all records", "anchors": ["normalize/identity.py: record_id", "normalize/record/__init__.py: Record.__hash__", "normalize/record/__init__.py: Record.__eq__"]}
{"id": "C29", "title": "The primary key alone determines identity", "statement": "If a class declares a primary key, record_id depends only on the primary key values; without one it depends on exactly the non-extraneous properties in sorted name order.", "quantifier": "all records", "why_tests_cant": "all pairs of records that agree on the key", "anchors": ["normalize/identity.py: record_id", "normalize/record/meta.py: RecordMeta.__new__"]}
{"id": "C30", "title": "V1 properties read as their none-value when unset and accept None", "statement": "Reading an unset V1 property returns its v1_none value and never raises; assigning None (or v1_none) to a set typed V1 property that rejects it unsets it; other rejected values raise.", "quantifier": "all states and values", "why_tests_cant": "all states and coerce functions", "anchors": ["normalize/property/__init__.py: V1Property"]}
{"id": "C31", "title": "Records survive pickling", "statement": "Unpickling a pickled record gives a record of the same class with exactly the same slots, without re-running coercion, checks or defaults.", "quantifier": "all records", "why_tests_cant": "all slot contents including ones that constructors would reject", "anchors": ["normalize/record/__init__.py: Record.__getnewargs__", "normalize/record/__init__.py: Record.__getstate__", "normalize/record/__init__.py: Record.__setstate__"]}
{"id": "C32", "title": "Subtype constructors only return members of the subtype", "statement": "For a subtype S of T with predicate where: isinstance(v, S) iff v is a T and where(v) is true (never raising); S(v) returns v itself for members, otherwise a coerced member, otherwise raises; so S is idempotent.", "quantifier": "all values, predicates (including raising ones) and coerce functions, any nesting of subtypes", "why_tests_cant": "arbitrary user predicates", "anchors": ["normalize/subtype.py: subtype"]}
{"id": "C33", "title": "Typed collections only ever hold items of their type", "statement": "In every state reachable by construction and any sequence of mutating methods (including ones that raise), each member of a ListCollection/DictCollection is an instance of itemtype, provided coerceitem returns such instances.", "quantifier": "all operation histories", "why_tests_cant": "invariant over unbounded histories", "anchors": ["normalize/coll.py: Collection.coerce_value", "normalize/coll.py: ListCollection", "normalize/coll.py: DictCollection"]}
{"id": "C34", "title": "ListCollection behaves as a python list of coerced items", "statement": "append, extend, item and slice get/set/delete, pop, remove, index, count, reverse, len, iteration and + have the effect and result of the same list method on the coerced items, for every index (negative, out of range).", "quantifier": "all lists, items, indices and operation sequences", "why_tests_cant": "a refinement over unbounded histories", "anchors": ["normalize/coll.py: ListCollection"]}
{"id": "C35", "title": "DictCollection behaves as a python dict of coerced items", "statement": "construction, item get/set/delete, update, pop, clear, in, keys/values/items, len have the effect of the same dict method on the coerced items.", "quantifier": "all dicts and operation sequences", "why_tests_cant": "a refinement over unbounded histories", "anchors": ["normalize/coll.py: DictCollection"]}
{"id": "C36", "title": "Collection equality is equality of item type and items", "statement": "== between collections of the same kind holds iff item types are the same and members are pairwise equal; a collection equals a plain list/dict iff converting that to the collection gives an equal one; it is reflexive and symmetric between collections.", "quantifier": "all collections", "why_tests_cant": "relation laws over all pairs", "anchors": ["normalize/coll.py: Collection.__eq__"]}
{"id": "C37", "title": "Generic collection types are unique per container and item type", "statement": "In any sequence of list_of/dict_of calls, the same (container, item type) always yields the same class, different ones yield different classes, a class with the same qualified name but different identity raises PropertyNotUnique, and a pickled generic collection unpickles to the same class with the same items.", "quantifier": "all call histories", "why_tests_cant": "a registry invariant over unbounded histories", "anchors": ["normalize/coll.py: _make_generic", "normalize/coll.py: GENERIC_TYPES", "normalize/coll.py: _GenericPickler"]}
{"id": "C38", "title": "An object never differs from itself", "statement": "diff_iter(x, x) yields nothing (apart from NO_CHANGE entries when unchanged=True) for every record or collection whose items can be identified.", "quantifier": "all records and collections, all option settings", "why_tests_cant": "all nested values", "anchors": ["normalize/diff.py: compare_record_iter", "normalize/diff.py: compare_collection_iter", "normalize/diff.py: compare_list_iter", "normalize/diff.py: compare_dict_iter"]}
{"id": "C39", "title": "Record diff is empty iff normalised slots agree", "statement": "compare_record_iter on two records of the same class yields no difference iff for every compared property the normalised values are equal (recursively for record-typed properties).", "quantifier": "all pairs of records", "why_tests_cant": "soundness and completeness over all pairs", "anchors": ["normalize/diff.py: compare_record_iter", "normalize/diff.py: DiffOptions.normalize_object_slot"]}
{"id": "C40", "title": "Swapping the arguments mirrors the diff", "statement": "diff(b, a) is diff(a, b) with ADDED and REMOVED exchanged and base/other selectors exchanged (as a multiset).", "quantifier": "all pairs", "why_tests_cant": "a symmetry over all pairs", "anchors": ["normalize/diff.py: compare_record_iter", "normalize/diff.py: compare_dict_iter", "normalize/diff.py: compare_list_iter"]}
{"id": "C41", "title": "Dict diff is exact", "statement": "For two dict-like collections: a key only in one side is reported exactly once as ADDED/REMOVED; a key in both sides contributes exactly its members' differences; nothing else is reported.", "quantifier": "all pairs of mappings", "why_tests_cant": "all pairs of mappings", "anchors": ["normalize/diff.py: compare_dict_iter"]}
{"id": "C42", "title": "List diff is multiset-exact", "statement": "For two lists, the number of REMOVED or MODIFIED (ADDED or MODIFIED) entries for an identity is max(0, count in base - count in other) (resp. other - base), where a removed and an added item at one index make one MODIFIED entry: there are no such entries iff the identities agree as multisets.", "quantifier": "all pairs of lists", "why_tests_cant": "counts over unbounded lists", "anchors": ["normalize/diff.py: compare_list_iter", "normalize/diff.py: compare_collection_iter", "normalize/diff.py: collection_generator"]}
{"id": "C43", "title": "Diff selectors point at real places", "statement": "For every REMOVED/MODIFIED difference the base selector can be followed in base, for every ADDED/MODIFIED one the other selector can be followed in other, and at MODIFIED leaves the two normalised values there differ.", "quantifier": "all pairs of records/collections", "why_tests_cant": "a soundness property for every emitted entry", "anchors": ["normalize/diff.py: DiffInfo", "normalize/diff.py: compare_record_iter", "normalize/diff.py: compare_collection_iter"]}
{"id": "C44", "title": "Text normalisation is idempotent and equates only what it should", "statement": "With ignore_ws/ignore_case/unicode_normal/ignore_empty_slots, normalising twice equals normalising once; two texts compare equal under ignore_ws iff they have the same words (maximal non-space runs); ignore_empty_slots makes empty text and None equal to unset.", "quantifier": "all strings and option sets", "why_tests_cant": "arbitrary text", "anchors": ["normalize/diff.py: DiffOptions.normalize_text", "normalize/diff.py: DiffOptions.normalize_whitespace", "normalize/diff.py: DiffOptions.normalize_slot"]}
{"id": "C45", "title": "Filtered diff reports only filtered fields", "statement": "With compare_filter=mfs every reported difference lies at a path mfs selects part of, and differences outside the filter do not affect the result.", "quantifier": "all pairs and filters", "why_tests_cant": "all filters", "anchors": ["normalize/diff.py: DiffOptions.is_filtered", "normalize/diff.py: compare_record_iter"]}
{"id": "C46", "title": "unchanged=True reports each compared leaf exactly once", "statement": "With unchanged=True each compared property yields either NO_CHANGE or at least one difference, never both.", "quantifier": "all pairs of records", "why_tests_cant": "a partition over all properties", "anchors": ["normalize/diff.py: compare_record_iter"]}
{"id": "C47", "title": "Fuzzy matching pairs items one to one", "statement": "Fuzzy matching of leftover items never uses an item twice, only pairs items that share something, and reports each unpaired leftover exactly once.", "quantifier": "all leftover sets and similarity scores", "why_tests_cant": "all score tables", "anchors": ["normalize/diff.py: _fuzzy_match", "normalize/diff.py: compare_collection_iter"]}
{"id": "C48", "title": "JSON output reads back to an equal record", "statement": "For a JsonRecord x whose slots are JSON-representable (ints within +-2**50, converters inverse to each other, json names distinct), from_json(type(x), to_json(x)) == x, for any nesting of records and lists.", "quantifier": "all schemas and values", "why_tests_cant": "unbounded nesting", "anchors": ["normalize/record/json.py: to_json", "normalize/record/json.py: from_json", "normalize/record/json.py: json_to_initkwargs"]}
{"id": "C49", "title": "Unknown JSON keys are preserved by JsonRecord and rejected by Record", "statement": "A JsonRecord built from JSON keeps every unknown key and json_data(extraneous=True) writes it back unchanged unless a property claims that key; building a plain Record from JSON with an unknown key raises; known keys are never reported unknown.", "quantifier": "all JSON objects", "why_tests_cant": "all key sets", "anchors": ["normalize/record/json.py: json_to_initkwargs", "normalize/record/json.py: JsonRecord.json_data", "normalize/record/json.py: from_json"]}
{"id": "C50", "title": "Extraneous and hidden properties stay out of JSON", "statement": "to_json writes a key for a property iff it is set, has a JSON output name and is not extraneous (or extraneous=True was asked); json_name=None properties are never read nor written.", "quantifier": "all schemas and values", "why_tests_cant": "all property declarations", "anchors": ["normalize/record/json.py: to_json", "normalize/property/json.py: JsonProperty"]}
{"id": "C51", "title": "AutoJsonRecord key conversion", "statement": "Converting a JSON key to a python attribute and back gives the original key for every key in which no lower-case letter or digit is followed by underscore and a lower-case letter.", "quantifier": "all strings", "why_tests_cant": "arbitrary keys", "anchors": ["normalize/record/json.py: AutoJsonRecord"]}
{"id": "C52", "title": "JSON output is always JSON", "statement": "to_json of a tree of records, collections, lists, dicts and scalars contains only JSON types; every int in it is within +-2**50, larger ones are decimal strings that read back to the same number.", "quantifier": "all values", "why_tests_cant": "unbounded nesting and integers", "anchors": ["normalize/record/json.py: to_json", "normalize/record/json.py: _json_data"]}
{"id": "C53", "title": "Visitor reproduces the object", "statement": "cast(T, visit(x)) == x for a record type T with invertible unpack/apply functions, with non-filtered fields only.", "quantifier": "all schemas and values", "why_tests_cant": "unbounded nesting", "anchors": ["normalize/visitor.py: VisitorPattern.visit", "normalize/visitor.py: VisitorPattern.cast"]}
{"id": "C54", "title": "Visitor output only contains selected, set fields", "statement": "visit with a filter emits a key iff the property is selected, set and its mapped value is not None (or ignore_none is off).", "quantifier": "all schemas, values and filters", "why_tests_cant": "all filters", "anchors": ["normalize/visitor.py: VisitorPattern.unpack", "normalize/visitor.py: VisitorPattern.map_record"]}
{"id": "C55", "title": "Visitor cue tracks the path and is restored", "statement": "While visiting, the visitor's cue equals the path of the value being processed, and it is restored after each sub-visit that returns.", "quantifier": "all object graphs", "why_tests_cant": "all traversals", "anchors": ["normalize/visitor.py: Visitor.push", "normalize/visitor.py: Visitor.pop", "normalize/visitor.py: VisitorPattern.map_record"]}
{"id": "C56", "title": "Record class assembly", "statement": "A record class has exactly the union of its bases' properties and its own, own declarations override inherited ones, two bases sharing a property name raise MultipleInheritanceClash, primary_key entries must be properties of the class; eager properties are exactly the required or defaulted non-lazy ones.", "quantifier": "all base lists and attribute sets", "why_tests_cant": "all class declarations", "anchors": ["normalize/record/meta.py: RecordMeta.__new__"]}
{"id": "C57", "title": "Property declarations resolve to a type carrying every requested trait", "statement": "Property(**kw) selects a property type whose traits include every trait implied by the arguments; 'safe' is added unless read-only, unsafe or already there; the result does not depend on registration history.", "quantifier": "all trait sets and call histories", "why_tests_cant": "all combinations and histories", "anchors": ["normalize/property/meta.py: has", "normalize/property/meta.py: create_property_type_from_traits", "normalize/property/meta.py: MetaProperty.__new__"]}
{"id": "C58", "title": "Empty placeholders stay empty", "statement": "Any chain of attribute accesses and subscripts on an empty placeholder that does not raise yields a falsy placeholder; placeholder(any) absorbs every access; assignments raise.", "quantifier": "all access chains", "why_tests_cant": "unbounded chains", "anchors": ["normalize/empty.py: EmptyVal", "normalize/empty.py: placeholder", "normalize/property/__init__.py: EmptyAuxProp"]}
{"id": "C59", "title": "Type iteration removes duplicates only", "statement": "itertypes yields each type found in the (possibly nested one level) input exactly once, in first-occurrence order.", "quantifier": "all inputs", "why_tests_cant": "all sequences", "anchors": ["normalize/empty.py: itertypes"]}
{"id": "C60", "title": "Post in sorted order always rebuilds a list", "statement": "Posting fields of list items in sorted selector order never raises 'out of order' when the indices present are 0..n-1, and rebuilds all n items.", "quantifier": "all n and item fields", "why_tests_cant": "any length", "anchors": ["normalize/selector.py: FieldSelector.__lt__", "normalize/selector.py: FieldSelector.post"]}
{"id": "C61", "title": "Wildcard put writes every item, stopping at the first failure", "statement": "Putting through a None component puts the value into each item of the list in order; if an item fails, its exception is raised, the items before it have been changed and those after it have not.", "quantifier": "all lists, sub-selectors and values", "why_tests_cant": "any length and any position of the failure", "anchors": ["normalize/selector.py: FieldSelector.put"]}
{"id": "C62", "title": "Wildcard delete is done in every item", "statement": "Deleting through a None component deletes in each item, passing over items where the path is missing; it raises only if there are items and the path is missing in all of them; any other exception stops it at once; a delete ending in None empties the collection.", "quantifier": "all lists and sub-selectors", "why_tests_cant": "any length and pattern of failures", "anchors": ["normalize/selector.py: FieldSelector.delete"]}
{"id": "C63", "title": "compare_as, compare_item_as and text normalisation decide what is compared", "statement": "The form of a value is what compare_as (for a property) or compare_item_as (for an item of a collection of plain values) makes of it, with texts normalised. A compared property whose two values have plain forms yields exactly one MODIFIED entry if the forms are not ==, and otherwise nothing (one NO_CHANGE entry with unchanged=True). Two lists or dicts of plain values differ exactly when the forms of their items differ as multisets; items without a hash count by their repr.", "quantifier": "all classes, compare_as and compare_item_as functions, text options, values and lists of any length", "why_tests_cant": "The user functions and the values are arbitrary; tests only try a few of each.", "anchors": ["normalize/diff.py:DiffOptions.normalize_object_slot", "normalize/diff.py:DiffOptions.normalize_item", "normalize/diff.py:compare_record_iter", "normalize/diff.py:compare_list_iter"]}
{"id": "C64", "title": "What from_json and the constructors return is valid", "statement": "If from_json or a constructor returns, then in the object and in everything inside it: each set attribute is a declared property with a value of one of its declared types that passes its check, each required non-lazy property is set, and each item of a collection is of the item type.", "quantifier": "all classes, documents of any depth, coercion, check and conversion functions (which return valid values, with types whose calls return instances)", "why_tests_cant": "Documents and schemas nest without bound, and the user functions are arbitrary.", "anchors": ["normalize/record/json.py: from_json", "normalize/record/json.py: json_to_initkwargs", "normalize/record/__init__.py: Record.__init__", "normalize/property/__init__.py: Property.type_safe_value", "normalize/coll.py: ListCollection.coerce_value"]}
{"id": "C65", "title": "Conversion errors name the place in the document", "statement": "If from_json (or the constructor of a JSON class) raises JsonConversionError, its error_fs is a non-empty path in the document that leads to a value for which sub_exception was raised: by a json_in or a from_json function of the user, or by a constructor or from_json of a class that does not blame a part of it.", "quantifier": "all classes, documents of any depth and user functions", "why_tests_cant": "The path depends on every level between the document and the failure; depth is unbounded.", "anchors": ["normalize/record/json.py: _json_data_to_initkwargs", "normalize/record/json.py: json_to_initkwargs", "normalize/record/json.py: JsonRecordList.json_to_initkwargs", "normalize/exc.py: JsonConversionError"]}
{"id": "C66", "title": "What cast returns is valid", "statement": "If VisitorPattern.cast returns, the object and everything inside it is valid: declared properties with values of the declared types that pass their checks, required properties set, items of the item type. It is an instance of the class asked for, unless that is not a collection and none of its properties is visited; then it is what reverse makes of the data.", "quantifier": "all classes, data of any depth, options and user functions (which return valid values)", "why_tests_cant": "Data and schemas nest without bound.", "anchors": ["normalize/visitor.py: VisitorPattern.cast", "normalize/visitor.py: VisitorPattern.grok", "normalize/visitor.py: VisitorPattern.produce", "normalize/visitor.py: VisitorPattern.map"]}
{"id": "C67", "title": "A visit leaves no records behind", "statement": "If apply returns plain data (values, lists and dicts) for everything that is visited, then visit returns plain data: no record or collection is left anywhere in the result.", "quantifier": "all objects of any depth, options and apply functions", "why_tests_cant": "Objects nest without bound.", "anchors": ["normalize/visitor.py: VisitorPattern.visit", "normalize/visitor.py: VisitorPattern.map_prop", "normalize/visitor.py: VisitorPattern.reduce", "normalize/visitor.py: VisitorPattern.aggregate"]}
{"id": "C68", "title": "Exceptions of apply and reverse are not swallowed", "statement": "If visit (cast) returns, then apply (reverse) returned whenever it was called: replacing what it does where it raises makes no difference to the result.", "quantifier": "all objects, options and user functions", "why_tests_cant": "The exception can be raised at any depth and be of any type.", "anchors": ["normalize/visitor.py: VisitorPattern.map_type_union", "normalize/visitor.py: VisitorPattern.map_record"]}
{"id": "C69", "title": "A placeholder refuses only what no type of it supports", "statement": "An operation on an empty placeholder (attribute access, subscript, slice, call) raises exactly when none of the classes it stands for supports it, own or inherited.", "quantifier": "all class hierarchies, placeholders and operations", "why_tests_cant": "all class hierarchies", "anchors": ["normalize/empty.py: EmptyVal.__getattr__", "normalize/empty.py: EmptyVal.__getitem__", "normalize/empty.py: EmptyVal.__call__"]}
{"id": "C70", "title": "The listed property is what the class attribute is", "statement": "For every name in a record class's properties, attribute access on the class finds exactly the property object listed there (so reads, writes and deletes on instances go through it).", "quantifier": "all class hierarchies with multiple inheritance, all declaration histories", "why_tests_cant": "all class hierarchies and method resolution orders", "anchors": ["normalize/record/meta.py: RecordMeta.__new__", "normalize/property/__init__.py: Property.aux_props"]}
{"id": "C71", "title": "Properties have the name they are listed under", "statement": "A property listed under a name in a record class has this name and is bound to the class or one of its ancestors, and no property is listed under two names.", "quantifier": "all declaration histories, including failed declarations", "why_tests_cant": "all declaration histories", "anchors": ["normalize/record/meta.py: RecordMeta.__new__", "normalize/property/__init__.py: Property.set_name", "normalize/property/__init__.py: Property.bind"]}
{"id": "C72", "title": "Properties get the accessor for empty values they should", "statement": "A record class has an accessor for each property newly declared in its body: under the name given as empty_attr, else under the property's name with 0 added, unless that name ends in a digit, in which case there is none. It has no other accessors of its own.", "quantifier": "all class hierarchies, bodies and declaration histories", "why_tests_cant": "all bodies and names", "anchors": ["normalize/property/__init__.py: Property.set_name", "normalize/property/__init__.py: Property.aux_props", "normalize/record/meta.py: RecordMeta.__new__"]}
{"id": "C73", "title": "Calling a property type gives an instance of it", "statement": "What a call of a property type returns is an instance of that type, so that python goes on to initialise it with the arguments.", "quantifier": "all property types, including composed and user-declared ones, all arguments and call histories", "why_tests_cant": "all combinations of types, arguments and earlier calls", "anchors": ["normalize/property/meta.py: has", "normalize/property/meta.py: create_property_type_from_traits", "normalize/property/meta.py: MetaProperty.__new__"]}
{"id": "C74", "title": "Read-only properties stay read-only", "statement": "Assigning to a property declared read-only is refused, whatever else is in its declaration.", "quantifier": "all property types and declarations with the trait ro", "why_tests_cant": "all combinations of traits and the method resolution orders they lead to", "anchors": ["normalize/property/meta.py: create_property_type_from_traits", "normalize/property/__init__.py: ROProperty.__set__", "normalize/property/__init__.py: SafeProperty.__set__", "normalize/property/__init__.py: V1Property"]}
{"id": "C75", "title": "Assignments to a property that should be safe are checked or refused", "statement": "If a property is declared with isa, check or required, or is of a kind that is safe by default, and is not declared unsafe, assigning to it is either refused or checked.", "quantifier": "all property types, declarations and call histories", "why_tests_cant": "all combinations of traits and the method resolution orders they lead to", "anchors": ["normalize/property/meta.py: has", "normalize/property/meta.py: create_property_type_from_traits", "normalize/property/__init__.py: SafeProperty.__set__"]}
{"id": "C76", "title": "AutoJsonRecord gives access to the whole document", "statement": "Any JSON object can be read into an AutoJsonRecord; each key is then an attribute under its converted name and there are no others; JSON objects inside are records at any depth, and list items are there by index. Declared properties have what is under their JSON names.", "quantifier": "all JSON documents, key conversions, declared properties and set orders", "why_tests_cant": "all documents of any depth", "anchors": ["normalize/record/json.py: AutoJsonRecord", "normalize/record/json.py: NCAutoJsonRecord", "normalize/record/json.py: json_to_initkwargs"]}
{"id": "C77", "title": "Attributes of an AutoJsonRecord can be assigned and deleted", "statement": "What is assigned to an attribute of an AutoJsonRecord is what is read afterwards; a deleted attribute is gone, and reading an attribute that is not there raises AttributeError.", "quantifier": "all records, names and values", "why_tests_cant": "all records and names", "anchors": ["normalize/record/json.py: AutoJsonRecord.__setattr__", "normalize/record/json.py: AutoJsonRecord.__delattr__", "normalize/record/json.py: AutoJsonRecord.__getattr__"]}
{"id": "C78", "title": "AutoJsonRecord writes the document it was read from", "statement": "json_data() of an AutoJsonRecord is the document it was made from, for documents whose keys survive the conversion and whose integers are in range.", "quantifier": "all JSON documents, key conversions and set orders", "why_tests_cant": "all documents of any depth", "anchors": ["normalize/record/json.py: AutoJsonRecord.json_data", "normalize/record/json.py: to_json", "normalize/record/json.py: AutoJsonRecord.json_to_initkwargs"]}
{"id": "C79", "title": "Dates survive JSON", "statement": "A date held by a DateProperty is the same date after it is written to JSON and read back.", "quantifier": "all dates of the years 1 to 9999, with or without dateutil (assumed to read ISO dates)", "why_tests_cant": "all dates, among them leap days and early years", "anchors": ["normalize/property/types.py: DateProperty", "normalize/property/types.py: coerce_date", "normalize/property/types.py: parse_datetime"]}
{"id": "C80", "title": "Datetimes survive JSON", "statement": "A datetime held by a DatetimeProperty is the same after it is written to JSON and read back; if it cannot be read, that is an error and not another time.", "quantifier": "all datetimes, with or without microseconds, time zone and dateutil", "why_tests_cant": "all datetimes and offsets", "anchors": ["normalize/property/types.py: DatetimeProperty", "normalize/property/types.py: coerce_datetime", "normalize/property/types.py: parse_datetime"]}
{"id": "C81", "title": "Ready-made properties hold values of their type", "statement": "Whatever is assigned to or constructed into an Int-, Integer-, Number-, String-, Unicode-, Float-, Date- or DatetimeProperty, what it holds afterwards is of that type: in particular a DateProperty never holds a datetime, but its date; values of the type are kept unchanged.", "quantifier": "all property types of the module and all values", "why_tests_cant": "all values", "anchors": ["normalize/property/types.py: DateProperty", "normalize/property/types.py: coerce_date", "normalize/property/__init__.py: Property.type_safe_value"]}
{"id": "C82", "title": "Texts are read as the date they say", "statement": "Without dateutil, a text that is read as a date or time is a notation of that date or time, and all notations (with or without hyphens, T or space, seconds, Z, two-digit years) of real dates and times are read as what they say.", "quantifier": "all texts", "why_tests_cant": "all texts of any length", "anchors": ["normalize/property/types.py: parse_datetime", "normalize/property/types.py: formats"]}
{"id": "C83", "title": "Numbers survive JSON", "statement": "A number held by a number property, of whatever size, is the same number after it is written to JSON and read back; so are strings.", "quantifier": "all numbers and property types", "why_tests_cant": "integers of any size; above 2**50 they are written as text", "anchors": ["normalize/property/types.py: coerce_number", "normalize/property/types.py: IntegerProperty", "normalize/record/json.py: to_json"]}
{"id": "C84", "title": "String properties refuse what is no string", "statement": "Assigning something that is no string to a StringProperty or UnicodeProperty raises an exception, as their documentation says.", "quantifier": "all values", "why_tests_cant": "all values", "anchors": ["normalize/property/types.py: StringProperty", "normalize/property/types.py: UnicodeProperty"]}
{"id": "C85", "title": "reflect describes every record type", "statement": "VisitorPattern.reflect returns a description for any record or collection type, whatever the options.", "quantifier": "all sets of classes, all options and filters", "why_tests_cant": "type graphs of any size, also recursive ones", "anchors": ["normalize/visitor.py: VisitorPattern.reflect", "normalize/visitor.py: VisitorPattern.scantypes", "normalize/visitor.py: VisitorPattern.map"]}
{"id": "C86", "title": "What reflect says of a type is complete and true", "statement": "The description gives the name of the type, each of its properties that is neither filtered nor extraneous and no other, the type of its items, and within it each record type that a property can have.", "quantifier": "all sets of classes, all options and filters", "why_tests_cant": "type graphs of any size and depth", "anchors": ["normalize/visitor.py: VisitorPattern.reflect", "normalize/visitor.py: VisitorPattern.propinfo", "normalize/visitor.py: VisitorPattern.typeinfo", "normalize/visitor.py: VisitorPattern.map_type_union"]}
{"id": "C87", "title": "make_property_type supplies defaults", "statement": "A property type made with make_property_type can be called like the one it is based on; each argument of the constructor is what the caller gives, or else the default of the most derived made type that has one, as if it had been passed to Property().", "quantifier": "all histories of property types, all made types, all arguments", "why_tests_cant": "type hierarchies and trait combinations without bound; which __init__ comes first depends on the names of traits", "anchors": ["normalize/property/__init__.py: make_property_type", "normalize/property/__init__.py: Property.__init__", "normalize/property/json.py: JsonProperty.__init__", "normalize/property/meta.py: create_property_type_from_traits"]}
{"id": "C88", "title": "A collection property holds the collections it was declared with", "statement": "A property declared with ListProperty, DictProperty or CollectionProperty, and a type made with list_of or dict_of, is of the kind of collection and of the item type that was asked for, whatever was declared before; a declaration that does not say so, or says two different things, raises an exception.", "quantifier": "all histories of declarations, all classes and class hierarchies", "why_tests_cant": "The generated types are shared in a process-wide registry, so the outcome depends on every declaration made before.", "anchors": ["normalize/property/coll.py:CollectionProperty", "normalize/property/coll.py:ListProperty", "normalize/property/coll.py:DictProperty", "normalize/coll.py:_make_generic"]}
{"id": "C89", "title": "Comparing never fails an assertion", "statement": "diff() never raises AssertionError, whatever the two objects, the options and the filter, as long as the functions supplied by the user do not; when an object, list or dict is present on one side only, it is reported as one addition or removal at its own place and nothing inside it is reported.", "quantifier": "all pairs of objects, all options, all filters that can be built, all user functions that do not raise AssertionError", "why_tests_cant": "The code asserts that what it finds below a value missing on one side is all of one kind; that depends on all of the recursion.", "anchors": ["normalize/diff.py: DiffOptions", "normalize/diff.py: compare_record_iter", "normalize/diff.py: compare_collection_iter", "normalize/diff.py: compare_list_iter", "normalize/diff.py: compare_dict_iter", "normalize/selector.py: MultiFieldSelector.__getitem__"]}
{"id": "C90", "title": "The differences between two objects can be carried over", "statement": "Fetching from b, with FieldSelector.get, what diff(a, b) reports as added or modified, putting it in its place in a with FieldSelector.put, and deleting from a what it reports as removed, in the order of the entries, succeeds, and then a has no differences from b.", "quantifier": "all pairs of objects of one class, all nestings, all options but duck typing, filters and recurse", "why_tests_cant": "Requires composing the whole comparison with the whole of selector access; one entry may change what the next one refers to.", "anchors": ["normalize/diff.py: diff_iter", "normalize/diff.py: compare_record_iter", "normalize/diff.py: DiffInfo", "normalize/selector.py: FieldSelector.get", "normalize/selector.py: FieldSelector.put", "normalize/selector.py: FieldSelector.delete"]}
{"id": "C91", "title": "Differences survive JSON", "statement": "json_data() of what diff of two JsonRecords gives lists each difference as its kind and its two places; giving this JSON (or text of it) to JsonDiff gives the same differences in the same order, whatever the order of the keys; entries of an unknown kind are refused. The diff method of a JsonRecord gives the same differences as that of a Record.", "quantifier": "all lists of differences, all selectors in them, all JSON documents that say them", "why_tests_cant": "unbounded lists of selectors of any length, read by generic code for any record type", "anchors": ["normalize/record/json.py: JsonDiffInfo.json_data", "normalize/record/json.py: JsonDiff", "normalize/record/json.py: JsonRecord.diff_iter", "normalize/record/json.py: JsonRecord.diff", "normalize/diff.py: _coerce_diff", "normalize/diff.py: DiffTypes"]}
{"id": "C92", "title": "The text of a diff mentions every difference", "statement": "str() of a diff never raises, gives the number of differences, and for each kind (+NEW, -OLD, <>X, <->OLD/<+>NEW, ==X) a text that MultiFieldSelector.from_path reads as a selector covering exactly the places of the differences of this kind; str() of one difference gives its kind and a text that reads back as its place.", "quantifier": "all lists of differences, all objects compared, all options", "why_tests_cant": "unbounded sets of paths, merged into one text with nested parentheses", "anchors": ["normalize/diff.py: Diff.__str__", "normalize/diff.py: DiffInfo.__str__", "normalize/selector.py: MultiFieldSelector.path"]}
{"id": "C93", "title": "Writing through a selector changes the record and nothing else", "statement": "However often a record is written to with FieldSelector.put, post and delete, and whether or not there are exceptions, an object that has no part in common with the record and with the values written stays what it was, with all its parts, and has no part in common with the record afterwards. post and delete change no existing object that is not part of the record. A put or delete without None before its last component changes one existing object only, the one get finds without the last component.", "quantifier": "all memories (objects shared in any way, cycles included), all records, selectors, values and sequences of writes, all classes whose converters and constructors make objects without changing any", "why_tests_cant": "objects can be shared in unboundedly many ways, and any number of writes can follow each other", "anchors": ["normalize/selector.py: FieldSelector.put", "normalize/selector.py: FieldSelector.post", "normalize/selector.py: FieldSelector.delete"]}
{"id": "C94", "title": "Reading changes nothing, and filtered copies are independent", "statement": "FieldSelector.get changes no object; what it returns consists of parts of the record and of new lists, and without None it is the part of the record itself, so that writing to it is writing to the record. MultiFieldSelector.get changes no object and returns a copy all of whose parts are new: whatever is then written to the copy, everything that existed stays what it was, and whatever is written to the original, the copy stays what it was.", "quantifier": "all memories, all objects, all selectors, all classes whose converters and constructors make objects without changing any, all sequences of writes afterwards", "why_tests_cant": "objects can be shared in unboundedly many ways, at any depth of the selection", "anchors": ["normalize/selector.py: FieldSelector.get", "normalize/selector.py: MultiFieldSelector.get", "normalize/selector.py: MultiFieldSelector._get"]}
{"id": "C95", "title": "Patching leaves the source alone", "statement": "MultiFieldSelector.patch changes the target and nothing else: the source stays what it was, with all its parts. With copy= the target has no part in common with the source afterwards.", "quantifier": "all memories, all targets and sources that have no part in common, all nested selectors, all copying functions, all classes whose converters and constructors make objects without changing any", "why_tests_cant": "one write can make the target share objects with the source, which a later one goes through", "anchors": ["normalize/selector.py: MultiFieldSelector.patch", "normalize/selector.py: MultiFieldSelector.delete"]}
{"id": "C96", "title": "Selectors cannot tell equal objects apart", "statement": "FieldSelector.get, put and delete do to an object what they do to the tree of values it looks like: get gives the same exception, or an object that looks like the value read from the tree; put and delete give the same outcome and leave an object that looks like the tree afterwards, as long as no part of the object is there twice and the value put has no part in common with it. So two objects that look the same, such as a record and its copy, give the same results.", "quantifier": "all memories, all objects and values, all selectors, all classes that do the same to objects that look the same and make objects without changing any", "why_tests_cant": "an object can look like a tree in unboundedly many ways, and share parts with others in unboundedly many ways", "anchors": ["normalize/selector.py: FieldSelector.get", "normalize/selector.py: FieldSelector.put", "normalize/selector.py: FieldSelector.delete"]}
{"id": "C97", "title": "repr prints a valid constructor", "statement": "repr of a value built of None, booleans, numbers, strings, lists, dicts, records and collections (with extra properties) is python source, and evaluating it with the classes in scope gives the value back; values that differ print differently.", "quantifier": "all classes whose names and property names can be spelled in source, all values whose records and collections hold what their types allow, all strings", "why_tests_cant": "there are unboundedly many strings, with quotes, backslashes, brackets and control characters, and values nest without bound", "anchors": ["normalize/record/__init__.py: Record.__repr__", "normalize/record/__init__.py: Record.__init__", "normalize/coll.py: ListCollection.__repr__", "normalize/coll.py: DictCollection.__repr__", "normalize/coll.py: Collection.__init__", "normalize/record/json.py: JsonRecordList.__repr__", "normalize/record/json.py: JsonRecordDict.__repr__"]}
{"id": "C98", "title": "repr of a selector gives the selector back", "statement": "Evaluating repr(field_selector) gives an equal field selector, whatever its components are; evaluating repr(multi_field_selector) raises nothing and gives a multi-field selector that contains the same paths.", "quantifier": "all field selectors, all multi-field selectors that can be built, all orders of sets", "why_tests_cant": "selectors can have any strings for components and nest without bound; one path alone prints differently from several", "anchors": ["normalize/selector.py: FieldSelector.__repr__", "normalize/selector.py: MultiFieldSelector.__repr__"]}
{"id": "C99", "title": "list_of and dict_of under threads", "statement": "When several threads call list_of and dict_of, calls with the same argument give the same class, with the container and item type asked for; no call fails or waits because of another.", "quantifier": "all numbers of threads, all calls, all schedules (orders in which the threads take their steps)", "why_tests_cant": "a test runs under the few schedules the interpreter happens to choose; the claim is about all of them", "anchors": ["normalize/coll.py: _make_generic", "normalize/coll.py: GENERIC_TYPES", "normalize/coll.py: list_of", "normalize/coll.py: dict_of", "normalize/coll.py: _GenericPickler"]}
{"id": "C100", "title": "Lazy properties under threads", "statement": "When several threads read a lazy property of one object, its default is evaluated once and all read the same value; values read are always admitted by the property's type; reads do not fail because of other threads.", "quantifier": "all kinds of lazy property, all numbers of threads and operations (reads, assignments, deletions), all schedules, all defaults, coerce and check functions", "why_tests_cant": "a test runs under the few schedules the interpreter happens to choose; the claim is about all of them", "anchors": ["normalize/property/__init__.py: LazyProperty.__get__", "normalize/property/__init__.py: LazySafeProperty.__get__", "normalize/property/__init__.py: ROLazyProperty.__get__", "normalize/property/__init__.py: Property.__get__", "normalize/property/__init__.py: SafeProperty.__set__", "normalize/property/__init__.py: SafeProperty.__delete__"]}
{"id": "C101", "title": "Every record can be hashed", "statement": "A record whose values are of their declared types has an identity (__pk__) and can be hashed, so that it can be put into sets and be compared as a member of a list.", "quantifier": "all classes, all records of any depth with values of their declared types (or of classes that extend them)", "why_tests_cant": "a test hashes a few records; which of all possible combinations of types and values raise is not seen", "anchors": ["normalize/identity.py: record_id", "normalize/record/__init__.py: Record.__hash__", "normalize/record/__init__.py: Record.__pk__", "normalize/coll.py: Collection.__eq__", "normalize/coll.py: ListCollection.coll_to_tuples", "normalize/diff.py: compare_collection_iter"]}
{"id": "C102", "title": "Exceptions are what the raise statement says and carry what it passes", "statement": "Every raise statement of the library raises an exception of the class it names, whatever values it is given; str() of the exception is the class's message with the fields filled in; what was passed can be read back as items and attributes; a message whose field is missing raises KeywordExceptionFormatError or PositionalExceptionFormatError with the class, the missing name and what was passed; exceptions can be copied and pickled; `except NormalizeError` catches all of them.", "quantifier": "every raise statement of the library, all values passed, all message templates, all classes of normalize.exc", "why_tests_cant": "the values are the user's: any object with any str, repr and attributes; most raise statements are not reached by tests at all", "anchors": ["normalize/exc.py:StringFormatException.__init__", "normalize/exc.py:StringFormatException.__getattr__", "normalize/exc.py:StringFormatException.__getitem__", "normalize/visitor.py:VisitorPattern.unpack", "normalize/coll.py:Collection.coerce_value", "normalize/selector.py:FieldSelector", "normalize/property/meta.py:has"]}
{"id": "C103", "title": "Collections keep their own properties", "statement": "A collection class may have properties besides its items. Methods of the collection never change the properties and attribute operations never change the items, in whatever order they are called; the constructor sets both; diff reports every difference of both; ==, +, JSON and pickling respect them.", "quantifier": "all histories of method calls and attribute operations, all collections, properties and items", "why_tests_cant": "tests cannot try all interleavings of method calls and assignments, all declarations of properties and all pairs of collections", "anchors": ["normalize/coll.py:Collection.__init__", "normalize/coll.py:Collection.__eq__", "normalize/coll.py:ListCollection.__add__", "normalize/coll.py:GenericTypes", "normalize/record/json.py:JsonRecordList", "normalize/diff.py:compare_record_iter"]}
{"id": "C104", "title": "to_json under threads", "statement": "However several threads that write JSON interleave, every object is marshalled by its own json_data() method if it has one (with extraneous= passed if the method takes it) and by to_json() otherwise; what was marshalled before does not matter, and no thread waits for another.", "quantifier": "all numbers of threads, all schedules, all sequences of objects, all contents of the caches", "why_tests_cant": "the window between the two cache updates is a few instructions wide; a test would have to hit it, for the first object of a type", "anchors": ["normalize/record/json.py:_json_data", "normalize/record/json.py:to_json"]}
{"id": "C105", "title": "Placeholders under threads", "statement": "However threads that follow chains like record.author0.comments[0].text interleave, each comes to a placeholder for the types it would come to on its own, or ends with the same exception; placeholders never change their types, no thread waits for another, and each tuple of types has a single placeholder.", "quantifier": "all numbers of threads, all schedules, all chains of operations, all classes, all earlier uses", "why_tests_cant": "interleavings of the check and the store of the three caches cannot be forced by a unit test", "anchors": ["normalize/empty.py:placeholder", "normalize/empty.py:EmptyVal"]}
{"id": "C106", "title": "Declaring properties under threads", "statement": "However threads that call Property(...) interleave (as when modules are imported by several threads), a call that returns gives a type with exactly the traits asked for; existing types stay as they are; every call ends; calls that would each succeed alone do not fail because of each other; there is one type for each set of traits; of two class statements for types with the same traits at most one succeeds.", "quantifier": "all numbers of threads, all schedules, all keyword arguments, all registered property types after any history", "why_tests_cant": "the check for an existing type and its entry into the registry are separate steps, and no unit test can force the interleavings", "anchors": ["normalize/property/meta.py:has", "normalize/property/meta.py:create_property_type_from_traits", "normalize/property/meta.py:MetaProperty.__new__"]}
{"id": "C107", "title": "Marshalling makes new documents", "statement": "to_json(record) and record.json_data() change no existing object and return a document of python lists and dicts that shares no part with the record or anything else that existed, nor with the result of another call, and in which no part occurs twice; for a record in memory they give what they give for the tree it looks like; they end for every record.", "quantifier": "all memories of objects (sharing and cycles included), all classes, all json_out functions and lazy defaults that change nothing, all depths", "why_tests_cant": "a test compares a few results by value; sharing between the result and the record only shows when one is changed later, and must be absent for every graph of objects", "anchors": ["normalize/record/json.py:to_json", "normalize/record/json.py:_json_data", "normalize/record/json.py:JsonRecord.json_data", "normalize/property/json.py:JsonProperty.to_json", "normalize/property/__init__.py:LazyProperty.__get__"]}
{"id": "C108", "title": "Unmarshalling and sharing", "statement": "from_json(cls, data) leaves the JSON data and everything else that existed unchanged, and the record it returns shares no part with the data nor with records made from other data.", "quantifier": "all memories of objects (sharing and cycles included), all classes, all JSON data, all json_in, coerce and default functions that change nothing, all depths", "why_tests_cant": "a test compares a few results by value; sharing between a record and its data only shows when one is changed later, and must be absent for every class and every document", "anchors": ["normalize/record/json.py:from_json", "normalize/record/json.py:json_to_initkwargs", "normalize/record/json.py:JsonRecord.__init__", "normalize/record/json.py:JsonRecordList", "normalize/record/json.py:JsonRecordDict", "normalize/property/__init__.py:Property.init_prop", "normalize/record/__init__.py:Record.__init__", "normalize/coll.py:ListCollection.coll_to_tuples"]}
{"id": "C109", "title": "Looking at records cannot be noticed", "statement": "Comparing records with == or diff, hashing them, printing them with str, marshalling them to JSON, visiting them and reading their attributes does not change what any of these operations, repr, pickling or later assignments and deletions give.", "quantifier": "all records in memory, nested and shared, all classes, all lazy defaults and compare_as functions that only read attributes (of any record), all sequences of operations, raising ones included", "why_tests_cant": "lazy attributes are stored on first access; a test sees one order of accesses, the claim is about all of them", "anchors": ["normalize/record/__init__.py:Record.__eq__", "normalize/record/__init__.py:Record.__repr__", "normalize/record/__init__.py:Record.__getstate__", "normalize/identity.py:record_id", "normalize/record/json.py:to_json", "normalize/diff.py:compare_record_iter", "normalize/visitor.py:VisitorPattern.map_record", "normalize/property/__init__.py:LazyProperty.__get__", "normalize/property/__init__.py:LazySafeProperty"]}
{"id": "C110", "title": "The same arguments make the same record in every process", "statement": "Constructing a record twice with the same arguments, in two processes with different string hashing, either fails in both or succeeds in both with the same attribute values.", "quantifier": "all classes, all defaults including methods that read other attributes, all arguments, all iteration orders of the set of attributes that were not passed", "why_tests_cant": "the order is picked by PYTHONHASHSEED; a test process runs with one seed and needs a class whose defaults depend on each other", "anchors": ["normalize/record/__init__.py:Record.__init__", "normalize/property/__init__.py:Property.get_default", "normalize/property/__init__.py:Property.init_prop", "normalize/property/__init__.py:Property.eager_init"]}
{"id": "C111", "title": "Functions given to properties are called the way they can be called", "statement": "A default= or compare_as= function that is accepted when the property is declared can be called with the arguments it is later called with; a function is refused only if there is no such way. A json_data method is called in a way it can be called, and gets extraneous= if it can take it.", "quantifier": "all functions, methods, classes and callable objects, with any positional, position-only, optional, keyword-only, * and ** parameters", "why_tests_cant": "there is no end of signatures; the failure shows when a record is constructed, compared or marshalled, not at the declaration", "anchors": ["normalize/property/__init__.py:Property.func_info", "normalize/property/__init__.py:Property.__init__", "normalize/property/__init__.py:Property.get_default", "normalize/property/__init__.py:DiffasProperty.__init__", "normalize/diff.py:DiffOptions.normalize_object_slot", "normalize/record/json.py:_json_data"]}
{"id": "C112", "title": "A filtered comparison misses nothing", "statement": "If a comparison with compare_filter ends and reports no difference, the two objects agree in everything that the selectors of the filter touch.", "quantifier": "all pairs of records, collections and containers, nested to any depth, all filters, all text options, with and without fuzzy matching, unchanged, moved and extraneous", "why_tests_cant": "a missed difference is an absence: no set of examples shows that there is none for some other filter and some other nesting", "anchors": ["normalize/diff.py:compare_collection_iter", "normalize/diff.py:DiffOptions.id_args", "normalize/diff.py:DiffOptions.is_filtered", "normalize/diff.py:compare_record_iter", "normalize/diff.py:_fuzzy_match", "normalize/selector.py:MultiFieldSelector.__contains__"]}
{"id": "C113", "title": "ignore_empty_items leaves out exactly the empty items", "statement": "With ignore_empty_items, items of a collection are considered to be absent if, and only if, they have all None, not set or '' in their primary key fields (in all compared fields if there is no primary key): the result is the same without them, and against an empty collection exactly the others are reported REMOVED.", "quantifier": "all pairs of collections of records, all numbers and positions of empty items, all text options, with and without recurse, fuzzy matching, unchanged and moved", "why_tests_cant": "which items count is decided per item and then enters matching, numbering and pairing; tests compare a few fixed lists", "anchors": ["normalize/diff.py:compare_collection_iter", "normalize/diff.py:_nested_empty", "normalize/diff.py:DiffOptions", "normalize/identity.py:record_id"]}
{"id": "C114", "title": "Different records have different identities", "statement": "Without primary keys, and with values of their declared types in all properties, two records of one class that have the same identity (record_id, __pk__, which also decides which members of two collections belong together) are equal.", "quantifier": "all classes without primary keys, all pairs of records of any depth", "why_tests_cant": "identities are computed recursively through declared types; a collision is found only if the test happens to contain the two objects that collide", "anchors": ["normalize/identity.py:record_id", "normalize/record/__init__.py:Record.__pk__", "normalize/record/__init__.py:Record.__eq__", "normalize/coll.py:DictCollection"]}
{"id": "C115", "title": "The text of a record names its key", "statement": "str() of a record gives the class and the values of its primary key (or of all properties): two records of one class that print alike have the same identity. It depends on nothing but the identifying properties, and can be printed for every record whose values are of their declared types.", "quantifier": "all classes, all pairs of records, all ways to print plain values that tell them apart", "why_tests_cant": "the text is cut at a fixed width, so collisions need long keys that agree in the beginning; a test with short keys never sees them", "anchors": ["normalize/record/__init__.py:Record.__str__", "normalize/record/__init__.py:Record.__pk__", "normalize/coll.py:ListCollection.__str__"]}
{"id": "C116", "title": "Having no differences is an equivalence", "statement": "If a comparison finds no differences between x and y, and none between y and z, it finds none between x and z; and none between y and x.", "quantifier": "all triples of objects of one type, of any depth, all texts options", "why_tests_cant": "three objects are involved, and what two comparisons leave out must add up; a pairwise test cannot see it", "anchors": ["normalize/diff.py:diff_iter", "normalize/diff.py:compare_record_iter", "normalize/diff.py:compare_collection_iter", "normalize/diff.py:DiffOptions"]}
{"id": "C117", "title": "Equal objects have no differences", "statement": "If two records or collections are equal (==), comparing them with the default options finds no differences.", "quantifier": "all pairs of equal objects, of any depth and size, all text options", "why_tests_cant": "equality and comparison are two separate recursive procedures; they must agree at every depth and for every mix of lists, dicts and records", "anchors": ["normalize/diff.py:diff_iter", "normalize/diff.py:compare_collection_iter", "normalize/record/__init__.py:Record.__eq__", "normalize/coll.py:Collection.__eq__", "normalize/identity.py:record_id"]}
{"id": "C118", "title": "Objects without differences are equal", "statement": "If a comparison that ignores nothing and reports moved items finds no difference between two records or collections of the same type, then they are equal (==).", "quantifier": "all pairs of objects, of any depth and size, fuzzy matching on or off", "why_tests_cant": "comparison and equality are two separate recursive procedures; a difference missed at any depth or by any matching of items would break this", "anchors": ["normalize/diff.py:diff_iter", "normalize/diff.py:compare_collection_iter", "normalize/diff.py:_nested_falsy", "normalize/record/__init__.py:Record.__eq__", "normalize/coll.py:Collection.__eq__"]}
{"id": "C119", "title": "A filtered copy has no differences within the filter", "statement": "Comparing an object with the copy that MultiFieldSelector.get makes of its selected parts, with the same selectors as compare_filter, finds nothing.", "quantifier": "all objects of any depth and size, all sets of selectors, all options but duck_type", "why_tests_cant": "copying and comparing interpret the same selectors in two separate recursive procedures, and identities of records in a third one", "anchors": ["normalize/selector.py:MultiFieldSelector.get", "normalize/diff.py:DiffOptions.id_args", "normalize/diff.py:DiffOptions.is_filtered", "normalize/identity.py:record_id"]}
{"id": "C120", "title": "Comparing objects of their declared types raises nothing", "statement": "diff_iter(a, b), for two objects of the same type whose values are of the types their properties and collections declare, runs to its end without an exception.", "quantifier": "all objects of any depth and size with values of their declared types, all options but compare_filter, duck_type and compare_as", "why_tests_cant": "the comparison raises in many places (identities that cannot be computed or hashed, types that differ, assertions), and each depends on the shape of the data at any depth", "anchors": ["normalize/diff.py:diff_iter", "normalize/diff.py:compare_record_iter", "normalize/diff.py:compare_collection_iter", "normalize/diff.py:_fuzzy_match", "normalize/identity.py:record_id"]}
{"id": "C121", "title": "cast refuses malformed data and names the place", "statement": "VisitorPattern.cast raises VisitorGrokRecordError where a record is needed and the data is no mapping, and VisitorGrokCollectionError where a collection is needed and the data is no list or mapping. The place that the exception names is one where there is such data; and if cast returns, there was none, at any depth.", "quantifier": "all classes, data of any depth, options and reverse functions", "why_tests_cant": "The malformed part can be at any depth and of any type.", "anchors": ["normalize/visitor.py: VisitorPattern.cast", "normalize/visitor.py: VisitorPattern.grok", "normalize/visitor.py: VisitorPattern.map", "normalize/exc.py: VisitorGrokRecordError", "normalize/exc.py: VisitorGrokCollectionError"]}
{"id": "C122", "title": "A union slot is cast to the first class that takes the data", "statement": "If a property has several types, VisitorPattern.cast makes of the data a record of the first class that does not refuse it; if all the classes refuse it, reverse is called.", "quantifier": "all classes, unions of any length, data, options and reverse functions", "why_tests_cant": "Any number of types, each of which can refuse the data at any depth.", "anchors": ["normalize/visitor.py: VisitorPattern.map_type_union", "normalize/visitor.py: VisitorPattern.map_prop", "normalize/exc.py: VisitorGrokRecordError"]}
{"id": "C123", "title": "Operations on records with lazy attributes say what the attributes say", "statement": "What ==, the primary key, to_json, diff and a visit return is determined by what reading the attributes gives, at any depth of records in records, whether attributes are stored, computed for it or not set: two records of one type are equal exactly if all their attributes that are not extraneous are; a key is made of the key attributes, with None for one that is not set; to_json writes the attributes that are set and have a JSON name; diff reports what differs in what compare_as makes of the values; a visit goes to the attributes that are not extraneous. And reading an attribute gives what is stored, or else the checked value of the default.", "quantifier": "all classes, all default functions and compare_as functions that only read, records in records to any depth, and all states", "why_tests_cant": "Which attributes are computed at which moment depends on the records, and an operation meets attributes that are half computed.", "anchors": ["normalize/record/__init__.py: Record.__eq__", "normalize/record/__init__.py: Record.__pk__", "normalize/record/json.py: _json_data", "normalize/record/json.py: to_json", "normalize/diff.py: compare_record_iter", "normalize/visitor.py: VisitorPattern.map_record", "normalize/property/__init__.py: LazyProperty.__get__"]}
{"id": "C124", "title": "Operations compute only the lazy attributes that they need", "statement": "==, the primary key, to_json, diff and a visit compute and store only lazy attributes that they need: those that the operation is about, of the records given and of the records it finds in them, and those that the defaults and compare_as functions called for it may read. All other attributes of all records are as before, whether the operation returns or raises.", "quantifier": "all classes, all default functions and compare_as functions that only read, records in records to any depth, and all states", "why_tests_cant": "A lazy attribute can be expensive; whether an operation leaves it alone has to hold for every schema and every state.", "anchors": ["normalize/record/__init__.py: Record.__eq__", "normalize/record/__init__.py: Record.__pk__", "normalize/record/json.py: _json_data", "normalize/record/json.py: to_json", "normalize/diff.py: compare_record_iter", "normalize/visitor.py: VisitorPattern.map_record", "normalize/property/__init__.py: LazyProperty.__get__"]}
{"id": "C125", "title": "A property can be composed unless a trait is missing", "statement": "If the arguments of Property(...) mean something and every trait that is wanted is one of a property type with wanted traits only, a property is made. If not, PropertyTypeMixinNotPossible is raised and no type is left behind.", "quantifier": "all property types, including user-declared ones, all arguments and call histories", "why_tests_cant": "all combinations of traits and the types already composed", "anchors": ["normalize/property/meta.py: create_property_type_from_traits", "normalize/property/meta.py: has", "normalize/exc.py: PropertyTypeMixinNotPossible"]}
{"id": "C126", "title": "repr of an exception creates it again", "statement": "repr() of an exception of the library is python source: evaluated where the class and the classes of the values passed are in scope, it creates an exception of the same class, with the same positional and keyword arguments and the same text.", "quantifier": "all exception classes, including user-declared ones, all messages and all positional and keyword arguments", "why_tests_cant": "strings of any characters and values of any depth can be passed", "anchors": ["normalize/exc.py: StringFormatException.__repr__", "normalize/exc.py: StringFormatException.__init__"]}
{"id": "C127", "title": "Identity under a selector depends on the selected parts alone", "statement": "record_id(x, type, selector) is the same for two objects that have the same values in the selected places. An empty selector means that everything counts.", "quantifier": "all types, all MultiFieldSelectors, all pairs of objects of any depth", "why_tests_cant": "objects can differ in any way outside of what is selected", "anchors": ["normalize/identity.py: record_id", "normalize/selector.py: MultiFieldSelector.__getitem__"]}
{"id": "C128", "title": "A slot with several record types is identified by the record in it", "statement": "If a property may hold records of several types, then what it contributes to the identity of its record is the identity of the record that it holds.", "quantifier": "all classes, all records that hold a record in such a property, any order of the types", "why_tests_cant": "types, keys and values can be combined in any number of ways", "anchors": ["normalize/identity.py: record_id"]}
{"id": "C129", "title": "After a patch nothing differs within the selection", "statement": "After mfs.patch(target, source) returns, comparing the two with compare_filter=mfs reports no differences.", "quantifier": "all selectors made of names, all records of the same class, any values, classes that store what they are given, all diff options that do not compare by duck type", "why_tests_cant": "selectors, objects and which attributes each of them has can be combined in any number of ways", "anchors": ["normalize/selector.py: MultiFieldSelector.patch", "normalize/diff.py: diff"]}
{"id": "C130", "title": "Comparing with recurse goes place by place, and is deeper", "statement": "With recurse=True, diff reports no difference exactly when the two objects agree place by place: members of collections are compared with those at the same index or key. If it reports none, then diff reports none without recurse either.", "quantifier": "all schemas, objects of any size and nesting, all diff options without duck_type and compare_filter, all hooks that keep records and collections as they are", "why_tests_cant": "the two ways to match members give the same result on small examples; that one is deeper than the other is a statement about all nestings", "anchors": ["normalize/diff.py: compare_collection_iter, diff_iter, DiffOptions.recurse"]}
{"id": "C131", "title": "What is read back from JSON, or cast from what a visit shows, has no differences from the original", "statement": "If an object can be read back from what to_json or json_data makes of it (C48), then diff reports no difference between the object and the one read back, in either direction and with or without recurse; likewise for cast of what a visit shows (C53).", "quantifier": "all schemas, objects of any size and nesting, both values of extraneous, all diff options without duck_type, compare_filter and extraneous", "why_tests_cant": "diff matches members by identity and normalises values, == does neither: that they agree on what is read back is a statement about all objects", "anchors": ["normalize/record/json.py: to_json, from_json, JsonRecord.json_data", "normalize/diff.py: diff, compare_record_iter, compare_collection_iter"]}
{"id": "C132", "title": "Field selectors are values", "statement": "Constructing a FieldSelector from another, +, slicing, copying and unpickling give a selector of its own: whatever is done to one selector later (add_property, add_index, add_full_collection, extend) changes that one and no other, whatever history made them. Equal selectors have equal hashes, and a selector can be compared with anything.", "quantifier": "all programs of any length that make, copy, combine and change selectors, all components", "why_tests_cant": "which selectors share a list depends on the whole history of the program", "anchors": ["normalize/selector.py: FieldSelector.__init__, add_property, add_index, add_full_collection, extend, __add__, __getitem__, __getnewargs__, __eq__, __ne__, __hash__"]}
{"id": "C133", "title": "The selectors of a difference belong to whoever gets it", "statement": "A program that takes differences from diff_iter one at a time may do what it likes with the base and other selectors of those it has got, such as extending them: the differences that follow are reported with the same paths as if it had not.", "quantifier": "all comparisons without a filter, at any depth of nesting, and all consumers: any operations on selectors between any two differences", "why_tests_cant": "which selectors a generator still uses depends on where it is suspended, and consumers can do anything in between", "anchors": ["normalize/diff.py: diff_iter, _diff_iter, compare_record_iter, compare_collection_iter, compare_list_iter, compare_dict_iter", "normalize/selector.py: FieldSelector.__add__, extend, add_property, add_index"]}
{"id": "C134", "title": "A visitor says where it is", "statement": "Whatever a sub-class of VisitorPattern does with the generators that its reduce and aggregate (produce, collect) are given - consume them, return them, mix them - whenever apply is called or the filter is asked about a property, the visitor's field_selector is the path of the value from the object that is visited.", "quantifier": "all objects of records, collections and values, at any depth, all filters, and all histories of taking items from the generators and returning from the functions", "why_tests_cant": "when a generator is started, suspended and resumed depends on the sub-class and on whoever gets its results", "anchors": ["normalize/visitor.py: Visitor.copy, Visitor.push, Visitor.pop, Visitor.is_filtered, VisitorPattern.map, map_record, map_collection"]}
{"id": "C135", "title": "Each set of types has a single placeholder", "statement": "Asking twice for the placeholder of the same set of types gives the same object, whatever the order of the types and whatever has been done in between; and what can be done with a placeholder depends only on its set of types.", "quantifier": "all classes with any attributes and item types, all lists of types, all histories of placeholders, and all chains of attributes, items, slices and calls", "why_tests_cant": "the types come from the declarations of all records of a program, and the cached attributes from everything that was done before", "anchors": ["normalize/empty.py: placeholder, EmptyVal.__getattr__, EmptyVal.__getitem__, EmptyVal.__call__"]}
{"id": "C136", "title": "A property of whole numbers holds the number it was given", "statement": "If a number is assigned to an IntProperty, LongProperty or IntegerProperty and nothing is raised, then the attribute is the same number. A text is taken exactly if it says a whole number, and as that number; anything else is refused.", "quantifier": "all integers, booleans, floats, decimals and texts, of any size and length, with any digits of unicode", "why_tests_cant": "there are infinitely many numbers and texts", "anchors": ["normalize/property/types.py: IntProperty, LongProperty, IntegerProperty, NumberProperty, coerce_number", "normalize/property/__init__.py: Property.type_safe_value"]}
{"id": "C137", "title": "The order of the selectors makes no difference", "statement": "Two MultiFieldSelectors that are made of the same field selectors do the same to an object, whatever the order in which the selectors were given and in which python iterates over its sets: iterating gives the same selectors, get selects the same, and delete and patch leave the same.", "quantifier": "all lists of field selectors with the same members, all orders of python's sets, all objects and classes", "why_tests_cant": "the order of python's sets depends on the hashes of strings, which are different in every process", "anchors": ["normalize/selector.py: MultiFieldSelector.__init__, __iter__, get, delete, patch"]}
{"id": "C138", "title": "What is wrong with a JSON dictionary is always said with its place", "statement": "Making a record of a JSON dictionary either works, as far as the conversion of the properties goes, or raises a JsonConversionError whose path starts with the key of the property whose value could not be converted; no other exception is raised, whatever JSON names the properties of the class have.", "quantifier": "all classes, JSON names, converters, documents (dictionaries) and further keyword arguments", "why_tests_cant": "properties of different base classes may get the same JSON name; a test sees only the classes it declares", "anchors": ["normalize/record/json.py: json_to_initkwargs, _box_ingress_error", "normalize/property/json.py: JsonProperty.json_name"]}
{"id": "C139", "title": "An assignment asks the functions of the user once", "statement": "Assigning a value to a property calls its coerce function at most once and its check function at most once, with the value that is stored if it passes; so a collection property stores or refuses what any other property with the same functions would.", "quantifier": "all properties and collection properties with a setter that checks, all values, all coerce and check functions, also such that remember what they were called with", "why_tests_cant": "the number of calls shows only in functions that have effects or a memory; tests use functions of the value only", "anchors": ["normalize/property/coll.py: SafeCollectionProperty.__set__", "normalize/property/__init__.py: SafeProperty.__set__, Property.type_safe_value"]}
{"id": "C140", "title": "Items that got a value together can be changed one by one", "statement": "If the items of a list have no part in common with each other or with a value, then putting the value into all of them with one selector that has a wildcard leaves them without common parts, so that a later write to one of them is not seen in the others.", "quantifier": "all lists, items, values, classes whose converters do not change existing objects, and selectors that start with a wildcard", "why_tests_cant": "that objects are shared shows only in later writes, to parts of any depth", "anchors": ["normalize/selector.py: FieldSelector.put"]}
{"id": "C141", "title": "A property can be declared while other threads declare property types", "statement": "A thread that declares a property with an argument of a more special property type finds the types that have the argument as they were when it began to look for them, and gets no exception, whatever property types other threads declare meanwhile.", "quantifier": "all schedules of the declaring thread and of declarations of property types by any number of other threads, all registries, all places where a set may put a new member", "why_tests_cant": "it depends on the schedule, and on the exact moment between two rounds of a loop", "anchors": ["normalize/property/meta.py: has, MetaProperty.__new__, DUCKWARGS"]}
{"id": "C142", "title": "A class has one complete selector", "statement": "MultiFieldSelector.complete_mfs(), which subscripting uses too, returns the same selector to all callers, and it is an instance of the very class it was called on, also if that class is derived from MultiFieldSelector.", "quantifier": "all class hierarchies, any number of calls on any classes in any number of threads, all schedules", "why_tests_cant": "the result depends on which classes were asked before, and on the schedule of the threads", "anchors": ["normalize/selector.py: MultiFieldSelector.complete_mfs, __getitem__"]}
{"id": "C143", "title": "foo0 is a placeholder only if there is no foo", "statement": "The attribute declared with empty_attr (by convention foo0 for foo) gives the value of the property, and a placeholder only if there is no value and none is to be computed; an exception raised by the function that computes a lazy value is not hidden.", "quantifier": "all record classes with properties of all kinds, all default functions (which may use other attributes of the record), all states of the record, all types of the property", "why_tests_cant": "it depends on what default functions raise, at any depth of lazy properties that use each other", "anchors": ["normalize/property/__init__.py: EmptyAuxProp.__get__, Property.__get__, LazyProperty.__get__, V1Property.attribute_error_hook"]}
