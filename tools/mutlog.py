"""Append the results of a batch of wrong programs (JSON lines) to seeded/LOG.jsonl."""
import json, sys
tight = json.load(open(sys.argv[2])) if len(sys.argv) > 2 else {}
out = open('/verif/seeded/LOG.jsonl', 'a')
for l in open(sys.argv[1]):
    m = json.loads(l)
    out.write(json.dumps({
        'definition': m['definition'] if '.lean' in m['definition'] else m['file'].replace('Verif/', '') + ': ' + m['definition'],
        'edit': m['edit'] + ' (' + m['old'].strip() + ' -> ' + (m['new'].strip() or 'removed') + ')',
        'claim': m['breaks'],
        'failed': [f + ': ' + t for f, t in m['fails']],
        'tightened': tight.get(m['edit'], []),
    }, ensure_ascii=False) + '\n')
