import json,sys
P='/verif/properties.jsonl'
have={json.loads(l)['id'] for l in open(P)}
new=json.load(open(sys.argv[1]))
with open(P,'a') as f:
    for p in new:
        if p['id'] not in have: f.write(json.dumps(p)+'\n')
