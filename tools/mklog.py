"""Writes seeded/LOG.jsonl from the results of tools/mutate.py: one line per wrong program, the last result counts."""
import json, os
import mutants
ROOT = os.environ.get('MUTROOT', '/tmp/mut')
HERE = os.path.join(os.path.dirname(os.path.abspath(__file__)), '..')
# theorems that were tightened because of the wrong program (number: names)
TIGHTENED = {147: ['failed_file_changes_nothing'], 162: ['failed_file_changes_nothing'],
             406: ['converted_file_lines_partial'], 410: ['converted_file_lines_partial'],
             461: ['default_password'], 530: ['every_credential_typable'],
             585: ['opening_uses', 'sealing_uses'], 586: ['opening_uses', 'sealing_uses'], 692: ['accepted_header_consistent', 'key_part_nonces_distinct', 'later_protected_part_opens'], 641: ['prompt_shown_first'], 673: ['help_layout'], 678: ['default_needs_no_aes', 'fast_uses_aes'], 632: ['primitives_called'], 634: ['box_made_iff'], 705: ['primitives_called'], 706: ['primitives_called'], 657: ['debug_of_group'], 658: ['debug_same_iff', 'debug_of_group']}
NOTES = {638: "unobservable: the flag for the echo is set or cleared right afterwards in any case",
         523: "unobservable: no thread ever panics (six_buffers), so this result is never looked at",
         184: "unobservable up to the message: reading refuses as well",
         565: "unobservable: the program never uses this default, it always sets the algorithm from the options; only the tests of the repository use it",
         455: "hostile_header_can_panic shows the other way to a panic and rightly survives",
         225: "public_path_differs is about texts only and rightly survives",
         606: "unobservable: the lengths have been checked before; the theorems fail only because their proofs look into the definition",
         458: "this panic is never reached (command_line_panic_cause), so nothing changes and all theorems rightly survive"}
known = {m['n']: m for m in mutants.ALL}
lines = {}
path = os.path.join(HERE, 'seeded/LOG.jsonl')
for l in open(path):
    if l.strip():
        d = json.loads(l); lines[d['n']] = d
for l in open(f'{ROOT}/results.jsonl'):
    r = json.loads(l)
    if 'error' in r or r['n'] not in known: continue
    m = known[r['n']]
    d = dict(n=r['n'], definition=f"Verif/Model/{m['module']}.lean: {m['definition']}", edit=m['edit'],
             diff=[{'old': o, 'new': n} for o, n in m['edits']], claim=m['claim'],
             theorems_failed=r['failed'], theorems_tightened=TIGHTENED.get(r['n'], []))
    if r['n'] in NOTES: d['note'] = NOTES[r['n']]
    lines[r['n']] = d
with open(path, 'w') as f:
    for n in sorted(lines): f.write(json.dumps(lines[n], ensure_ascii=False) + '\n')
print(len(lines))
