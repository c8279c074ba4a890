# Formal model of hearsaycorp/normalize in Lean 4

## Layout

* `properties.jsonl` – the properties, in terms of the public API (generated by `tools/gen_props.py`).
* `lean/Verif/Model/*` – the model. Each definition cites the `/repo` lines it models.
* `lean/Verif/Spec/*` – small independent specifications used in theorem statements.
* `lean/Verif/Lemmas/*` – helper lemmas. Nothing here is claimed.
* `lean/Verif/Props/*` – the property theorems, each with an `example` that meets its hypotheses.
* `MANIFEST.json` – property → theorems.
* `AXIOMS.md` – the axioms of every theorem in the manifest (generated by `tools/gen_axioms.py`).
* `seeded/LOG.jsonl` – log of wrong programs the theorems were tried against.

## Modelling style

Python functions become total Lean functions, branch by branch.  Exceptions are values
(`Except Exc α`), mutation is state passing.  An operation that may mutate *and* raise returns both the
new state and the outcome, so "raises and leaves unchanged" is a statement, not an assumption of the model.
User-supplied functions (`coerce=`, `check=`, `default=`, `compare_as=`, `where=`, JSON converters) are
parameters, quantified over in the theorems.

Simplifications, repeated at the definitions concerned:

* Values are trees (`Val`): no aliasing, no cycles, except in `Model.Mem`, which models selectors on objects
  that can be shared.  C96 proves that `get`, `put` and `delete` on objects follow those on trees as long as the
  object written to has no part twice.  Floats, dates and other atoms are opaque tags.
* `bool` is not identified with `int` for selector components (`True` as an index is not modelled).
* Attributes of a record are its declared properties; methods and class attributes are not reachable
  through `getattr` in the model.
* Python `dict`/`set` iteration order: dicts are association lists in insertion order; sets are lists in
  an arbitrary order, and theorems hold for every order.
* Regular expressions are run by a small backtracking matcher (`Model/Regex.lean`) with python's
  leftmost, ordered-choice semantics; the Unicode tables behind `\w`, `\d`, `\s` are parameters.
* Threads appear in `GenericThreads`, `LazyThreads`, `JsonThreads`, `EmptyThreads` and `TraitThreads` only: one dict access, one attribute access or one
  call of user code is atomic, and threads switch between any two of these.  Elsewhere the code runs alone.
* Warnings, docstrings and pickle's byte format are not modelled.

## Which parts of the code are modelled

| file in `/repo/normalize` | model | not modelled |
|---|---|---|
| `selector.py` | `Selector`, `SelectorPath` (with `Regex`), `Access`, `Mfs`, `MfsAccess`, `Mem`, `SelRepr`, `SelectorObj` (selectors as objects), `CompleteMfs` (`complete_mfs` with threads) | `__str__` of `MultiFieldSelector` |
| `exc.py` | `Exc`: which exception is raised, and what it says about the place; `Exceptions`: all classes with their messages, `StringFormatException` (creation, attributes, items, copies; `__repr__` in `ExcRepr`), all raise statements of the library with the sorts of what they pass | format specs, `[...]` and `!a` in messages (`ValueError` in the model) |
| `property/__init__.py` | `Property` (descriptors, defaults, coercion, V1), `ClassMeta` (names and accessors), `PropInit` (constructors, `make_property_type`), `LazyThreads`, `SoftGet` (the attribute `foo0`), `Observe` (lazy attributes read by other operations), `Signature` (`func_info` and the calls that depend on it) | the warning for a default whose argument is not called `self` |
| `property/meta.py` | `Traits`, `TraitThreads`, `DuckThreads` (the registry of arguments) | `_merge_camel_case_names` (only makes a class name) |
| `property/coll.py`, `property/json.py` | `Traits` (their place among the types), `Json` (names and converters), `PropInit` (the arguments of the constructors), `CollProp` (the collection types), `CollSet` (the setters) | – |
| `property/types.py` | `Types`, with python's `strptime`, `isoformat` and `int` | the arithmetic of floats and decimals |
| `record/__init__.py`, `record/meta.py` | `Property` (constructor), `Identity` (`==`, hash), `ClassMeta`, `Generic` (pickling), `Repr`, `RecordStr` (`__str__`) | – |
| `record/json.py` | `Json`, `JsonKeys`, `AutoJson`, `JsonDiff`, `JsonThreads` (the caches of `_json_data`), `JsonMem` (output on a memory of objects), `JsonInMem` (input on a memory of objects) | – |
| `coll.py` | `Coll`, `CollEq`, `CollExtra` (properties of collections), `PyList`, `Generic`, `GenericThreads` | – |
| `identity.py` | `Identity` | – |
| `subtype.py` | `Subtype` | – |
| `diff.py` | `Diff`, `DiffDefault`, `DiffText`, `DiffStr`, `DiffLive` (the selectors of a running comparison) | `diff` (a list around the generator) |
| `visitor.py` | `Visitor`, `VisitorLazy` (the generators), `Util`, `Reflect` | `reflect` of an instance (same as of its type) |
| `empty.py` | `Empty`, `EmptyThreads`, `Util` | texts |

## What is modelled and how it is proved, per property

| id | what is modelled | how it is proved |
|---|---|---|
| C01 | `FieldSelector.__lt__`, `__eq__`, `total_ordering` | induction on the components |
| C02 | formatting, the regex scanner, unescaping | the matcher is shown to do what the pattern says, then induction on the components; `C02_roundtrip_iff` is exact |
| C03 | `get` | induction on the path |
| C04, C05, C08 | `get`, `put`; the conversion of a slot is a parameter | induction on the path |
| C06, C61, C62 | `get`, `put`, `delete` with wildcards | induction on path and items |
| C07 | `get_or_none` | case analysis of the error that `get` gives |
| C09, C60 | `post` | induction on the path; C60 over sorted lists of paths |
| C10 | `delete` | induction on the path |
| C11 | the constructor over any kind of component | case analysis |
| C12 | `__add__`, `__getitem__`, `startswith` | list induction |
| C13, C15, C16 | the `heads` trie and its construction | induction on the total length of the selectors, against a prefix specification |
| C14 | `MultiFieldSelector.__getitem__` | the same |
| C17 | the branch stack machine that parses paths | invariant of the machine |
| C18–C20 | `MultiFieldSelector.get/delete/patch` | induction on trie and value |
| C21–C26, C30 | property kinds as a transition system, re-entrant default methods included | invariants over all histories |
| C27–C29 | `Record.__eq__`, `record_id`, `__hash__` | mutual induction on values |
| C31, C37 | instance dict transfer; registry of generic types | invariant over histories |
| C32 | subtype check and constructor | induction on the nesting |
| C33–C36 | `ListCollection`, `DictCollection` as transition systems | invariant; refinement to python's `list` and `dict` |
| C38–C43, C45–C47, C63 | the diff generators as functions to a list of differences and a final exception; options and overridden methods are parameters | mutual induction on values and work lists |
| C44 | text normalisation with the unicode tables as parameters | list induction |
| C48–C50, C52, C64, C65 | `from_json`, `to_json`, constructors, converters as parameters | induction on documents, types and values |
| C51 | `json_to_initkwargs` names, the regex key conversion | character-level induction |
| C53–C55, C66–C68 | visit and cast with all hooks; the cue as state | induction on values and documents |
| C56, C70–C72 | `RecordMeta.__new__`, C3 linearization, metaclass choice, accessors | invariant over histories of class statements |
| C57, C73–C75 | `has`, `create_property_type_from_traits`, `MetaProperty.__new__`, the `super().__new__` chain | invariant over histories of class statements and calls; termination by counting the trait sets that can still be made |
| C58, C59, C69 | placeholders, `itertypes` | invariant over histories of accesses; list induction |
| C76–C78 | `AutoJsonRecord`: reading, writing, attributes | induction on documents |
| C79–C84 | the coerce functions, the fallback date parser down to the regular expressions of `strptime` | list induction over the directives of a format; exact characterisation of the texts that are read |
| C85, C86 | `reflect` over any graph of classes, with python's recursion limit | induction on the limit and on accessibility; returns iff there is no endless chain of types |
| C87 | the chain of `__init__` methods along any method resolution order, `make_property_type` | induction on the method resolution order; invariant of histories from C57 |
| C88 | declarations of list, dict and collection properties and the registry of generated types, along any history | invariant of the registry: what is registered was made for its key |
| C89 | diff with any options, filters and overridden methods | induction on depth: below a value present on one side only, all entries are of one kind; a filter that says "any" has one head |
| C90 | diff composed with get, put and delete | induction on depth; entries of one property only touch that attribute; afterwards the property is settled whatever else changes |
| C91 | `DiffTypes`, `_coerce_diff`, `JsonDiffInfo`, `JsonDiff` as classes of the general model of JSON input; `FieldSelector(…)` of any object | the general reader is run on these classes, with the list of entries by induction |
| C92 | `Diff.__str__`, `DiffInfo.__str__` as texts, on top of the constructor and `path` of `MultiFieldSelector` | the groups by induction over the differences, then C13, C16 and C17 |
| C93 | `FieldSelector` on a memory of mutable objects with identities (`Model.Mem`) | regions closed under references, by induction over the selector and the writes |
| C94 | `FieldSelector.get`, `MultiFieldSelector.get` and `copy.deepcopy` on memory | by induction over the nested selector, that all parts of the result are new; then C93 |
| C95 | `MultiFieldSelector.patch` and `delete` on memory | the target's and the source's regions stay disjoint, by induction over the selectors |
| C96 | the model on memory (`Model.Mem`) against the model on trees (`Model.Access`) | a simulation, by induction over the selector: each place owns its objects, so a write to one part leaves the others alone |
| C97 | `repr` with python's string escapes, a parser for the fragment of python that is printed, and the constructors | induction over the value: the text of each part is read back whatever follows it, and the constructors accept what the types allow |
| C98 | `__repr__` of both selectors, the parser of C97, the constructors of `Model.Mfs` | the components are read back as in C97; the paths are those of `__iter__`, from which C15 rebuilds the selector |
| C99 | `_make_generic` as steps on the shared registry, interleaved by any schedule | invariants kept by every step of every thread |
| C100 | the getters, setters and deleters of the lazy property classes as steps on one slot, interleaved by any schedule | invariants kept by every step of every thread |
| C101 | `record_id` and `hash` on objects whose values are of their declared types | induction on the object; a recursion limit that is enough for all the parts |
| C102 | exception objects, str.format for fields with attributes and conversions, the table of classes and the table of raise statements with the sorts of what they pass | a checker on sorts proved sound for all values, evaluated by the kernel for each raise statement; induction over the parts of a message |
| C103 | collection objects as items with slots; method calls, attribute operations, the constructor, ==, +, diff, JSON and pickling | induction over the history for the independence; the theorems about record construction (C26) for what is made of the properties; counterexamples for the rest |
| C104 | `_json_data` as atomic steps on its two caches, any number of threads each with a sequence of objects | invariant on caches and places of the threads, by induction over the schedule; for one thread the invariant that a type is half known only while the thread completes it; a measure for termination |
| C105 | `placeholder` and the operations of `EmptyVal` as atomic steps on `EMPTY_VALS` and the caches, any number of threads with a chain each | an invariant on caches and places of the threads, by induction over the schedule, compared with the single-threaded model of C58; a measure for termination |
| C106 | `has`, `create_property_type_from_traits` and `MetaProperty.__new__` as atomic steps on `PROPERTY_TYPES`, any number of threads | an invariant by induction over the schedule; a lexicographic measure for termination; a simulation of the model of one thread; the violations by concrete schedules |
| C107 | `to_json`, `_json_data`, `json_data`, `slot_is_empty`, `__get__` on a memory of objects, with a depth for python's recursion limit | induction over the depth with an invariant on memories (only lazy slots are filled in, documents consist of new lists and dicts); induction over trees for the comparison with the model on trees |
| C108 | `from_json`, `json_to_initkwargs`, `JsonRecord.__init__`, the JSON collections, `Record.__init__`, `init_prop`, `type_safe_value` and collection coercion on a memory of objects, with a depth for python's recursion limit | one induction for any two properties of values that satisfy a list of conditions, instantiated twice (known objects; new or wholly in the document); a step-by-step simulation with the model of JSON input on trees (`C108_same`) |
| C109 | `==`, `record_id` (hash, str), `to_json`, `compare_record_iter`, `visit` and `getattr` as code that reads attributes of numbered records, run on all instance dicts at once; lazy defaults are arbitrary code, `repr` and pickling show the dict | a second semantics that never stores anything; soundness and completeness of the storing one with respect to it, by induction on the nesting of defaults and on the code; assignments commute with it where the name is not read |
| C110 | `Record.__init__` with an arbitrary iteration order of the set of missing names (model of C26), defaults are programs over the record | invariant over the states of the record: it holds the arguments, and lazy values that are the results of computing them from the arguments, with everything those needed; induction over the rank of lazy attributes (mutual induction on `Ready`), then over the missing names; the final slots are a union that does not depend on the order |
| C111 | `func_info`, the checks at declaration, the calls; a function is its list of parameters, what is bound has one more in front | python's rule for calls as a specification; arithmetic on the number of required parameters |
| C112 | the model of the diff with filters; a specification of agreement as far as selectors go, with members paired one to one | induction on the depth of recursion; pairs by identity and pairs found approximately together cover all members that are looked at; a filter without a wildcard misses some key |
| C113 | the model of the diff; a specification of empty items by their fields | the identity of a plain record is empty iff its key fields are; the bags of both sides do not change when empty items are left out, nor what is read by key; for fields that hold records, induction on the depth of the identity |
| C114 | the model of record_id and of `==` | induction over the object: the parts of equal tuples are equal, and each part is the identity of a value as an object of its class |
| C115 | `Record.__str__` and `ListCollection.__str__` over the model of record_id; `repr` of plain values from the model of `repr` | induction over the key: its text, followed by a comma or parenthesis, determines it |
| C116 | the model of the diff, through C39 | transitivity and symmetry of agreement, by induction; the numbered members of three bags correspond |
| C117 | the models of == and of the diff, through C39 | induction on the object: equal objects agree; equal members get the same labels in the same order |
| C118 | the models of the diff and of == | induction on the depth: a comparison that finds nothing pairs each item with one of the same key, and finds nothing between the two |
| C119 | MultiFieldSelector.get, the filtered diff and record_id with a selector | induction on the selectors: the copy agrees with the object as far as they go; induction on the depth: objects that agree have the same identities and no differences |
| C120 | diff_iter with the default methods, record_id with normalisation, == | induction on the recursion limit over a family of objects closed under slots and members; a limit exists because objects are finite; C89 for the assertion |
| C121 | grok, map, map_record, map_collection | the exceptions of a visit come from its hooks (induction on the recursion limit); the parts of what is cast with success are cast with success (induction on the path) |
| C122 | map_type_union, map_prop, map_record | induction on the types before; for one slot the result, for several what the constructor is given |
| C123 | ==, __pk__, to_json, compare_record_iter, map_record as code that reads attributes of a state | a run with caching gives what a run without gives (C109's lemma); then induction on the depth and the properties |
| C124 | the same model | the code only reads what is needed as long as reading gives what it gives in the first state; induction on the code and on the recursion limit of getAt |
| C125 | create_property_type_from_traits | invariants of the registry; the rounds of composing keep the types to start with |
| C126 | StringFormatException.__repr__ and evaluating a call | the texts of the arguments are read back one by one (C97) |
| C127 | record_id with a selector | induction on the depth; the keys of the parts are the same and not empty |
| C128 | record_id, the loop over value_type_list | induction on the types, with the best identity so far |
| C129 | patch of C20 and the filtered diff of C119 together | the route is kept by every write and deletion; reads after the patch (C20) give objects that are the same within the selection, whose diff is empty (C119) |
| C130 | compareKeys of the diff model of C39; agreement place by place as an inductive relation | the comparison is still iff it agrees, by induction on the depth and on the agreement; lists that agree place by place have the same identities in the same order, which is the agreement of C39 |
| C131 | the JSON model of C48 and the diff model of C39 on one schema | the induction of C48 for any relation that goes through records and collections member by member, and agreement of diff as such a relation |
| C132 | memory with lists and objects that refer to them; programs as lists of operations | refinement of a list of values, with the invariant that no two selectors have the same list |
| C133 | generators as the things they do with their two selectors, interleaved with programs on selector objects (C132) | invariant: the selectors in use are out of reach of the consumer; structural induction over the comparison functions for the link with the model of diff |
| C134 | generators as objects with their own visitor, a stack of calls, and a history of taking items and returning | invariant: the cue of every started generator is the place of its object and the item it is at |
| C135 | the heap of placeholders of C58, and two of them side by side | induction on the chain with the characterisations of C58, which depend on membership only |
| C136 | the types of C81, with the exact values of floats and decimals as fractions | induction on the text against an inductive definition of digit texts; arithmetic |
| C137 | the tries of C13 and the operations of C18-C20 | induction on the construction: the paths of the trie are the outermost selectors; then C18-C20 |
| C138 | json_to_initkwargs as in C53 | induction over the properties: a round works iff its key is still among the unknown ones |
| C139 | the setters, with functions that see all earlier calls | case distinction: what type_safe_value returns passes its tests up to check |
| C140 | put on objects with an identity, as in C93 | induction over the items, with C93 for each of them |
| C141 | the loop of has step by step, with additions to the sets in between | an invariant of the loop: the members seen are a beginning of the set at its start, or the size has changed |
| C142 | the class method as steps of threads | invariant: each class keeps an object of its own class; then that nothing changes it any more |
| C143 | the getter of `foo0` on top of the model of properties and of placeholders | cases on how reading `foo` ends; counterexample with a lazy property that reads an unset one |

No property of the list was found to be inexpressible.

## Where the code breaks a property

For each, `Cnn_statement` is the full property, `Cnn_violated` its refutation on the model, and `Cnn_…_partial` what holds.

| id | what goes wrong |
|---|---|
| C02 | a negative index, an empty key, a key with `']` in it, or an identifier ending in a newline do not survive `from_path(path)` |
| C07 | `get_or_none` raises `KeyError` for a missing key of a dict collection |
| C09 | where a dict collection lacks a key, `post` makes the item but follows the rest of the path from the collection itself |
| C11 | falsy things that are no components are accepted: `FieldSelector(["a", 0.0])` |
| C14 | `MultiFieldSelector([None, "b"])["a"]` is `None` although `["a", "b"]` is covered |
| C17 | the path of the empty `MultiFieldSelector` reads back as the one that contains everything |
| C18 | list items picked by index move to other indices |
| C19 | `delete` of two items of a list removes a wrong one; a required property stops it half-way (`C19_half_done`) |
| C20 | patching a field of an item that a dict collection does not have yet writes to another key |
| C28 | equal dict collections filled in different order hash differently; so do records identified through a declared type |
| C29 | a property that may hold a string or a record identifies every string alike |
| C30 | assigning `None` to an unset V1 property raises `KeyError` |
| C34 | `insert` raises; `pop(-5)` of two items takes the first; `index` with a bound past the end raises `IndexError`; `coll.extend(coll)` never ends |
| C35 | a `DictCollection` made from another one is empty |
| C37 | an instance of a subclass of a generated collection class is unpickled as the generated class (`C37_subclass_lost`) |
| C40 | with `duck_type` the two directions differ (`C40_duck_type_asymmetric`) |
| C41 | members of dicts are matched by value, whatever their keys: `{"a": 1}` and `{"b": 1}` do not differ |
| C45 | all items of a plain list are compared if the filter selects one; with a filter with nested wildcards, members of inner collections are identified also by what the filter does not select (C45_outside_violated) |
| C46 | a property unset on both sides is not reported as unchanged; an item can be reported twice |
| C48 | a plain `Record` in a `JsonRecord` cannot be read back if a property has a `json_name` |
| C49 | an integer beyond 2**50 under an unknown key comes back as a string |
| C50 | a converter that raises `AttributeError` silently drops the property |
| C51 | `foo_bar` and `fooBar` have the same JSON name (`C51_condition`) |
| C53 | `None` comes back unset; an object without visited properties comes back as a dict; of several types the first record type is tried, so that texts are refused and records change class |
| C55 | in `cast`, all members of a dict read into a list are visited at index 0 |
| C57 | `ListProperty(of=X, traits=["unsafe"])` is safe; some declarations raise `KeyError` or not depending on earlier ones, since `create_property_type_from_traits` uses its loop variable instead of its choice |
| C68 | a `TypeError` raised by `apply` below a property with several types is swallowed |
| C69 | placeholders look up `__getitem__`, `__call__`, `__getattr__` in the class's own dictionary only |
| C70 | the accessor of `foo` hides a property `foo0`; a plain attribute of a subclass hides a property |
| C71 | a property object assigned to two names has one of them |
| C73 | `LazySafeProperty(json_name="x")` is not initialised |
| C74 | `ListProperty(of=X, traits=["ro"], default=())` can be assigned to |
| C76 | `AutoJsonRecord({"a": [{}, 5]})` raises |
| C77 | assigning to an attribute of an `AutoJsonRecord` does nothing or raises; deleting one raises; a missing one raises `KeyError` |
| C78 | `AutoJsonRecord({"a": {"b": 1}})` is written as `{"a": {}}` |
| C80 | without `dateutil`, times with microseconds or a time zone are written but cannot be read |
| C82 | without `dateutil`, `2001-02` is read as 2 January 2020 |
| C84 | `StringProperty` refuses nothing: `None` becomes `"None"` |
| C85 | `reflect` never returns for a recursive type |
| C86 | of several record types of a property, `reflect` describes the first |
| C87 | `make_property_type("P", json_name="x")()` and `make_property_type("P", lazy=True)()` raise `TypeError` |
| C88 | `ListProperty(of=Dog, isa=AnimalList)` accepts any animals; two container classes of the same `__name__` share generated types, so that `ListProperty(of=Dog, coll=Bag)` may hold dicts |
| C90 | a list `[x, y]` against `[]`: REMOVED [0] and REMOVED [1]; after the first is deleted there is no [1] |
| C92 | `str(diff)` does not mention items that moved, and raises `ValueError` if a compared dict has the key `None` (`C92_violated`, `C92_raises`) |
| C93 | `put` with `None` in the selector can change the value it puts, and make it a part of itself, when one item is part of another | `C93_value_violated` |
| C95 | `patch` without `copy=` can change the source, when a negative and a non-negative index mean the same item of the target | `C95_violated` |
| C97 | `repr` of a record whose property with a default was deleted gives a record that has the default; a property called `init_dict` is taken for the dict of arguments; `repr` of a `JsonRecordDict` raises TypeError | `C97_default_violated`, `C97_own_violated`, `C97_json_dict_violated` |
| C99 | two threads that call `list_of(Foo)` at the same time may get two different classes, or (two classes of one name) a collection of the other's items; objects of the first class come back from pickle as the second | `C99_violated`, `C99_other_type_violated`, `C99_pickle_violated` |
| C100 | two threads may evaluate a lazy default twice and get different objects; a read-only lazy property may change after it was read; an assignment may be undone by a read that began before it; a read may raise KeyError when another thread deletes | `C100_violated`, `C100_read_only_violated`, `C100_assignment_violated`, `C100_delete_violated` |
| C101 | `hash(record)` raises KeyHashError when a typed collection in it is empty (`val_pk or val` falls back to the collection, which has no hash), and comparing lists of such records raises; a string in a property with `isa=(str, SomeList)` makes `hash` raise CollectionCoerceError | `C101_violated`, `C101_empty`, `C101_union_violated`, `C101_diff` |
| C102 | four raise statements cannot raise their exception: VisitorUnpackError (visitor.py:233) passes a string as `colltype`, CollectionItemCoerceError (coll.py:144) a tuple as `itemtype` for collections of several types, AmbiguousPropertyTraitArg (property/meta.py:72) and NoneMutable (property/__init__.py:442) do not exist: AttributeError instead | `C102_violated`, `C102_broken` |
| C103 | collections forget their own properties: `==` ignores them (although diff reports them), `+`, JSON and pickling of subclasses of `list_of(…)` drop them, and with a required property `coll == [...]` and `coll + other` raise PropertyRequired | `C103_eq_violated`, `C103_add_violated`, `C103_json_violated`, `C103_pickle_violated`, `C103_compare_violated` |
| C104 | `_json_data` enters a type into `has_json_data` before `json_data_takes_extraneous`: a thread in between gets KeyError from to_json | `C104_violated`, `C104_race` |
| C105 | two threads may get different placeholders for the same types | `C105_single_violated` |
| C106 | threads that declare the same new kind of property may fail with `PropertyTypeClash` or `PropertyTypeMixinFailure`, or get different types | `C106_violated`, `C106_single_violated`, `C106_clash_violated` |
| C107 | `to_json` sets lazy properties of the record; records that are part of themselves cannot be marshalled | `C107_unchanged_violated`, `C107_ends_violated` |
| C108 | a record made from JSON shares untyped values with the data; records share a mutable default | `C108_violated`, `C108_apart_violated` |
| C109 | comparing a record freezes its lazy attributes, shows in `repr`, and decides whether they can be deleted | `C109_shown_violated`, `C109_later_violated`, `C109_results_violated` |
| C110 | the order in which defaults are evaluated is a set's, so defaults that read each other give different records in different processes | `C110_violated`, `C110_accepted_violated` |
| C111 | bound methods, classes and required keyword-only parameters are miscounted; `compare_as=str.lower` gets the record; `json_data` with other keyword-only parameters gets `extraneous=` | `C111_default_violated`, `C111_default_kwonly_violated`, `C111_compare_violated`, `C111_clean_up_violated`, `C111_json_violated`, `C111_extraneous_violated` |
| C112 | members of collections of records that are named by key and selected only in part are not compared | `C112_violated` |
| C113 | with extraneous=True items with values only in extraneous fields are left out by ignore_empty_items | `C113_violated` |
| C113 | ignore_empty_items leaves out an entry with an author if the author has no primary key | `C113_records_violated` |
| C114 | the keys of dict collections, what a subclass adds, and the class of members with several item types are not part of the identity | `C114_violated`, `C114_subclass_violated`, `C114_items_violated` |
| C115 | long keys are cut, so different records print alike; records with empty typed collections cannot be printed | `C115_violated`, `C115_prints_violated` |
| C116 | with fuzzy matching (the default), with ignore_empty_slots, or where lists of different classes meet, having no differences is not transitive | `C116_default_violated`, `C116_violated`, `C116_types_violated` |
| C117 | equal dict collections of records with the same primary key have differences if the entries were put in in another order | `C117_violated` |
| C118 | lists whose items cannot be hashed are compared by their text: ["[1]"] and [[1]] have no differences | `C118_violated` |
| C119 | a filtered copy differs from its original within the filter: items picked by index, nested wildcards in identities | `C119_violated`, `C119_wild_violated` |
| C120 | comparing valid objects raises: empty typed collections in identities, several item types, items of different classes | `C120_violated`, `C120_tuple`, `C120_mixed_violated` |
| C121 | cast of a text to a collection raises CollectionCoerceError without a place | `C121_violated` |
| C122 | cast of a slot that may be a record or a list raises VisitorGrokRecordError for a list | `C122_violated` |
| C125 | Property(json_name='x', lazy=True, default=None) raises KeyError although all traits are there | `C125_violated` |
| C126 | repr(exc.SomeError((1, 2))) raises TypeError | `C126_violated` |
| C127 | record_id of two lists of people with the same names, under MultiFieldSelector([None, 'name']), differs if the ids do | `C127_violated`, `C127_wildcard`, `C127_names_violated` |
| C128 | the owner of a pet is a person or a company: persons are not identified by their primary key | `C128_violated` |
| C129 | the source has no author: after patching author.name the target keeps an author without name, and diff reports it | `C129_violated` |
| C130 | a dict of two people with one id, and the same dict filled in the other order: no difference with recurse, two without | `C130_violated`, `C130_violated_key` |
| C131 | a log whose visits are identified by an extraneous number: what is read back is equal, and diff reports a visit removed and one added | `C131_violated` |
| C132 | copy.copy(fs).add_property('b') adds it to fs too; FieldSelector(['a']) in {FieldSelector(['a'])} is False; fs == None raises TypeError | `C132_violated`, `C132_hash_violated`, `C132_compare_violated` |
| C133 | after `for d in diff_iter(a, b): d.base.add_property('x')` later added items are reported below `.x`, on both sides if the compared objects are collections | `C133_violated` |
| C134 | a reduce that returns its generator: apply and the filter get paths without the way to the record, so filtered fields are shown | `C134_violated`, `C134_list_violated`, `C134_filter_violated` |
| C135 | `placeholder((A, B))` is not `placeholder((B, A))`, though each set of types should have one | `C135_violated` |
| C136 | an `IntProperty` takes 2.75 as 2 without an error | `C136_violated` |
| C137 | `MultiFieldSelector([0], [1]).delete(l)` and `MultiFieldSelector([1], [0]).delete(l)` leave different items | `C137_violated`, `C137_patch_violated` |
| C138 | two properties with the same `json_name`: `from_json` raises `KeyError`, `to_json` drops the first value | `C138_violated` |
| C139 | `ListProperty(of=…, check=f)`: an assignment calls `f` twice | `C139_violated`, `C139_refused` |
| C140 | `FieldSelector([None, "tags"]).put(items, [])` gives all items the same list | `C140_violated`, `C140_same` |
| C141 | a property type declared in one thread while another declares a property: `RuntimeError` | `C141_violated`, `C141_raises` |
| C142 | two threads may get two different complete selectors | `C142_violated` |
| C143 | an `AttributeError` raised inside a lazy default makes `foo0` a placeholder | `C143_violated` |

## Trusted base

* Lean 4.33.0's kernel.
* Axioms: only `propext`, `Classical.choice`, `Quot.sound`; `AXIOMS.md` lists them for each theorem. No axioms are added; there is no `sorry`, `native_decide` or `bv_decide`.
* The correspondence between `/repo` python and the model, by reading (no code is run here), with the simplifications above and those named at the definitions.
* What theorems assume of user functions (`coerce=`, `check=`, `==` of plain values, converters, hooks) is in their statements.
